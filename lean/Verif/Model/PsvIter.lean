import Verif.Model.PsvErat

/-!
# Model of SievingPrimes, PrimeGenerator and primesieve::iterator of lib/primesieve

Line references are to files below /repo/lib/primesieve.
-/

namespace PS
namespace Psv

/-! ## src/SievingPrimes.cpp -/

/-- include/primesieve/SievingPrimes.hpp:32-38 -/
structure SievingPrimes where
  er : Erat := {}
  i : ℕ := 0
  size : ℕ := 0
  low : ℕ := 0
  tinyIdx : ℕ := 0
  sieveIdx : ℕ := max64
  primes : Vec ℕ := Vec.mk' 128 0
  tiny : Vec Bool := ⟨#[]⟩

/-- SievingPrimes.cpp:41-47: the odd numbers up to `n` that are prime. -/
def tinySieve (n : ℕ) : M (Vec Bool) :=
  loop (n + 3) (3, (Vec.mk' (n + 1) true : Vec Bool)) (fun s =>
    if s.1 * s.1 ≤ n then do
      let b ← s.2.rd s.1
      let v ← (if b then forStep (s.1 * s.1) (n + 1) (s.1 * 2) s.2 (fun j v => v.wr j false) else pure s.2)
      pure (.next (s.1 + 2, v))
    else pure (.done s.2))

/-- SievingPrimes.cpp:28-36, 39-51: also returns the pre-sieve object, which is shared. -/
def SievingPrimes.init (env : Env) (s : SievingPrimes) (erat : Erat) (pre : PreSieve) :
    M (SievingPrimes × PreSieve) := do
  let stop ← isqrt env erat.stop
  let r ← s.er.init env (pre.maxPrime + 1) stop erat.getSieveSize pre
  let n ← isqrt env r.1.stop
  let tiny ← tinySieve n
  pure ({ s with er := r.1, tiny := tiny, tinyIdx := r.1.start + (1 - r.1.start % 2) }, r.2)

/-- `for (; bits != 0; bits &= bits - 1) primes[num++] = nextPrime(bits, low);`, SievingPrimes.cpp:71-72,
PrimeGenerator.cpp:312-313 -/
def emitBits (env : Env) (bits low num : ℕ) (primes : Vec ℕ) : M (ℕ × Vec ℕ) :=
  loop 65 (bits, num, primes) (fun s =>
    if s.1 ≠ 0 then do
      let p ← nextPrime env s.1 low
      let primes ← s.2.2.wr s.2.1 p
      pure (.next (s.1 &&& (s.1 - 1), s.2.1 + 1, primes))
    else pure (.done s.2))

/-- State of the loops that convert sieve bytes into primes. -/
structure Fill where
  num : ℕ
  low : ℕ
  sieveIdx : ℕ
  primes : Vec ℕ

/-- SievingPrimes.cpp:67-78, PrimeGenerator.cpp:308-319: `do { … } while (num <= maxSize - 64 && sieveIdx <
sieveSize)` -/
def fillLoop (env : Env) (sieve : Vec Byte) (sieveSize maxSize : ℕ) (s : Fill) : M Fill :=
  loop (sieveSize + 1) s (fun s => do
    let bits ← littleEndian sieve s.sieveIdx
    let r ← emitBits env bits s.low s.num s.primes
    let low := u64 (s.low + 8 * 30)
    let sieveIdx := s.sieveIdx + 8
    let m ← csub maxSize 64
    if r.1 ≤ m ∧ sieveIdx < sieveSize then pure (.next ⟨r.1, low, sieveIdx, r.2⟩)
    else pure (.done ⟨r.1, low, sieveIdx, r.2⟩))

/-- SievingPrimes.cpp:84-105 -/
def SievingPrimes.sieveSegment (s : SievingPrimes) (pre : PreSieve) : M (Bool × SievingPrimes) := do
  if s.er.hasNextSegment then do
    let high := s.er.segmentHigh
    let r ← loop (high + 2) (s.tinyIdx, s.er) (fun t =>
      if t.1 * t.1 ≤ high then do
        let b ← s.tiny.rd t.1
        let er ← (if b then t.2.addSievingPrime t.1 else pure t.2)
        pure (.next (t.1 + 2, er))
      else pure (.done t))
    let er ← r.2.sieveSegment pre
    pure (true, { s with er := er, sieveIdx := 0, tinyIdx := r.1 })
  else do
    let primes ← s.primes.wr 0 max64
    pure (false, { s with i := 0, size := 1, primes := primes })

/-- SievingPrimes.cpp:53-82 -/
def SievingPrimes.fill (env : Env) (s : SievingPrimes) (pre : PreSieve) : M SievingPrimes := do
  let r ← (if s.sieveIdx ≥ s.er.sieveSize then s.sieveSegment pre else pure (true, s))
  let s := r.2
  if r.1 then do
    let f ← fillLoop env s.er.sieve s.er.sieveSize s.primes.size ⟨0, s.low, s.sieveIdx, s.primes⟩
    pure { s with i := 0, size := f.num, low := f.low, sieveIdx := f.sieveIdx, primes := f.primes }
  else pure s

/-- SievingPrimes.hpp:44-50 -/
def SievingPrimes.next (env : Env) (s : SievingPrimes) (pre : PreSieve) : M (ℕ × SievingPrimes) := do
  let s ← loop (s.er.stop + 3) s (fun s => do
    if s.i ≥ s.size then do
      let s ← s.fill env pre
      pure (.next s)
    else pure (.done s))
  let p ← s.primes.rd s.i
  pure (p, { s with i := s.i + 1 })

/-! ## src/PrimeGenerator.cpp -/

/-- include/primesieve/PrimeGenerator.hpp:36-41 -/
structure PrimeGenerator where
  er : Erat
  low : ℕ := 0
  sieveIdx : ℕ := max64
  prime : ℕ := 0
  pre : PreSieve := {}
  sp : SievingPrimes := {}
  isInit : Bool := false

/-- PrimeGenerator.cpp:108-110, Erat.cpp:57-60 -/
def PrimeGenerator.make (start stop : ℕ) : PrimeGenerator :=
  { er := { start := start, stop := stop } }

/-- PrimeGenerator.cpp:164-167 -/
def maxCachedPrime : M ℕ := smallPrimes.rd 127

/-- PrimeGenerator.cpp:169-177 -/
def getStartIdx (start : ℕ) : M ℕ := if start > 1 then primePi.rd (start - 1) else pure 0

/-- PrimeGenerator.cpp:179-189 -/
def getStopIdx (stop : ℕ) : M ℕ := do
  let m ← maxCachedPrime
  if stop < m then primePi.rd stop else pure 128

/-- PrimeGenerator.cpp:150-162 -/
def PrimeGenerator.initErat (env : Env) (g : PrimeGenerator) : M PrimeGenerator := do
  let m ← maxCachedPrime
  let startErat := max (m + 1) g.er.start
  if startErat ≤ g.er.stop then do
    let r ← g.er.init env startErat g.er.stop (getSieveSize env) g.pre
    let q ← g.sp.init env r.1 r.2
    pure { g with isInit := true, er := r.1, sp := q.1, pre := q.2 }
  else pure { g with isInit := true }

/-- PrimeGenerator.cpp:113-129 (used by `prev_prime`; `reserve` has no effect on the result) -/
def PrimeGenerator.initPrev (env : Env) (g : PrimeGenerator) (primes : Vec ℕ) : M (PrimeGenerator × Vec ℕ) := do
  let m ← maxCachedPrime
  let primes ← (if g.er.start ≤ m then do
      let a ← getStartIdx g.er.start
      let b ← getStopIdx g.er.stop
      forUp a b primes (fun j primes => do
        let p ← smallPrimes.rd j
        pure (primes.push p))
    else pure primes)
  let g ← g.initErat env
  pure (g, primes)

/-- PrimeGenerator.cpp:132-148 (used by `next_prime`): also returns `*size`. -/
def PrimeGenerator.initNext (env : Env) (g : PrimeGenerator) (primes : Vec ℕ) :
    M (PrimeGenerator × Vec ℕ × ℕ) := do
  let m ← maxCachedPrime
  let r ← (if g.er.start ≤ m then do
      let a ← getStartIdx g.er.start
      let b ← getStopIdx g.er.stop
      let size ← csub b a
      let primes ← forUp 0 size primes (fun j primes => do
        let p ← smallPrimes.rd (a + j)
        primes.wr j p)
      pure (primes, size)
    else pure (primes, 0))
  let g ← g.initErat env
  pure (g, r.1, r.2)

/-- PrimeGenerator.cpp:191-208 -/
def PrimeGenerator.sieveSegment (env : Env) (g : PrimeGenerator) : M PrimeGenerator := do
  let sqrtHigh ← isqrt env g.er.segmentHigh
  let g := { g with sieveIdx := 0, low := g.er.segmentLow }
  let g ← (if g.prime = 0 then do
      let r ← g.sp.next env g.pre
      pure { g with prime := r.1, sp := r.2 }
    else pure g)
  let g ← loop (sqrtHigh + 2) g (fun g => do
    if g.prime ≤ sqrtHigh then do
      let er ← g.er.addSievingPrime g.prime
      let r ← g.sp.next env g.pre
      pure (.next { g with er := er, prime := r.1, sp := r.2 })
    else pure (.done g))
  let er ← g.er.sieveSegment g.pre
  pure { g with er := er }

/-- PrimeGenerator.cpp:211-223 -/
def PrimeGenerator.sieveSegmentPrev (env : Env) (g : PrimeGenerator) (primes : Vec ℕ) :
    M (Bool × PrimeGenerator × Vec ℕ) := do
  let r ← (if g.isInit then pure (g, primes) else g.initPrev env primes)
  if r.1.er.hasNextSegment then do
    let g ← r.1.sieveSegment env
    pure (true, g, r.2)
  else pure (false, r)

/-- `for (; bits != 0; bits &= bits - 1) primes.push_back(nextPrime(bits, low_));`, PrimeGenerator.cpp:269-270 -/
def pushBits (env : Env) (bits low : ℕ) (primes : Vec ℕ) : M (Vec ℕ) :=
  loop 65 (bits, primes) (fun s =>
    if s.1 ≠ 0 then do
      let p ← nextPrime env s.1 low
      pure (.next (s.1 &&& (s.1 - 1), s.2.push p))
    else pure (.done s.2))

/-- PrimeGenerator.cpp:265-274 -/
def PrimeGenerator.drain (env : Env) (g : PrimeGenerator) (primes : Vec ℕ) : M (PrimeGenerator × Vec ℕ) :=
  loop (g.er.sieveSize + 1) (g, primes) (fun s =>
    if s.1.sieveIdx < s.1.er.sieveSize then do
      let bits ← littleEndian s.1.er.sieve s.1.sieveIdx
      let primes ← pushBits env bits s.1.low s.2
      pure (.next ({ s.1 with low := u64 (s.1.low + 8 * 30), sieveIdx := s.1.sieveIdx + 8 }, primes))
    else pure (.done s))

/-- PrimeGenerator.cpp:261-276 (used by `prev_prime`) -/
def PrimeGenerator.fillPrev (env : Env) (g : PrimeGenerator) (primes : Vec ℕ) : M (PrimeGenerator × Vec ℕ) :=
  loop (g.er.stop + 3) (g, primes) (fun s => do
    let r ← s.1.sieveSegmentPrev env s.2
    if r.1 then do
      let t ← r.2.1.drain env r.2.2
      pure (.next t)
    else pure (.done r.2))

/-- PrimeGenerator.cpp:226-252 (used by `next_prime`): the result, the generator, the vector and `*size`. -/
def PrimeGenerator.sieveSegmentNext (env : Env) (g : PrimeGenerator) (primes : Vec ℕ) :
    M (Bool × PrimeGenerator × Vec ℕ × ℕ) := do
  let r ← (if g.isInit then pure (g, primes, 0) else g.initNext env primes)
  if r.2.2 > 0 then pure (false, r)
  else if r.1.er.hasNextSegment then do
    let g ← r.1.sieveSegment env
    pure (true, g, r.2)
  else if r.1.er.stop ≥ max64 then do
    let primes ← r.2.1.wr 0 max64
    pure (false, r.1, primes, 1)
  else pure (false, r)

/-- PrimeGenerator.cpp:285-326 (used by `next_prime`) -/
def PrimeGenerator.fillNext (env : Env) (g : PrimeGenerator) (primes : Vec ℕ) :
    M (PrimeGenerator × Vec ℕ × ℕ) :=
  loop (g.er.stop + 3) (g, primes) (fun s => do
    let r ← (if s.1.sieveIdx ≥ s.1.er.sieveSize then s.1.sieveSegmentNext env s.2
      else pure (true, s.1, s.2, 0))
    if r.1 then do
      let g := r.2.1
      let f ← fillLoop env g.er.sieve g.er.sieveSize r.2.2.1.size ⟨0, g.low, g.sieveIdx, r.2.2.1⟩
      let g := { g with low := f.low, sieveIdx := f.sieveIdx }
      if f.num = 0 then pure (.next (g, f.primes)) else pure (.done (g, f.primes, f.num))
    else pure (.done r.2))

/-! ## src/IteratorHelper.cpp -/

/-- IteratorHelper.cpp:27-40 -/
def getNextDist (env : Env) (n dist : ℕ) : M ℕ := do
  let m ← maxCachedPrime
  let tinyDist := m * 4
  let minDist := env.sqrtD n
  let maxDist := 1 <<< 60
  pure (min (max (max (u64 (dist * 4)) tinyDist) minDist) maxDist)

/-- IteratorHelper.cpp:42-65 -/
def getPrevDist (env : Env) (n dist : ℕ) : M ℕ := do
  let minDist := u64 (2 ^ 20 * 8 / 8 * env.prevLog n)
  let maxDist := u64 (2 ^ 20 * 1024 / 8 * env.prevLog n)
  let m ← maxCachedPrime
  let tinyDist := m * 4
  let defaultDist := env.prevDefault n
  pure (min (max (min (max (u64 (dist * 4)) tinyDist) minDist) defaultDist) maxDist)

/-- IteratorHelper.cpp:86-111: returns `start`, `stop` and `dist`. -/
def helperNext (env : Env) (stop stopHint dist : ℕ) : M (ℕ × ℕ × ℕ) := do
  let start := checkedAdd stop 1
  let m ← maxCachedPrime
  if start < m then pure (start, m, m - start)
  else do
    let dist ← getNextDist env start dist
    let stop := checkedAdd start dist
    if stopHint ≥ start ∧ stopHint < max64 then pure (start, checkedAdd stopHint (env.maxGap stopHint), dist)
    else pure (start, stop, dist)

/-- IteratorHelper.cpp:113-124: returns `start`, `stop` and `dist`. -/
def helperPrev (env : Env) (start stopHint dist : ℕ) : M (ℕ × ℕ × ℕ) := do
  let stop := checkedSub start 1
  let dist ← getPrevDist env stop dist
  let start := checkedSub stop dist
  if stopHint ≥ start ∧ stopHint ≤ stop then pure (checkedSub stopHint (env.maxGap stopHint), stop, dist)
  else pure (start, stop, dist)

/-! ## src/iterator.cpp -/

/-- include/primesieve/iterator.hpp:87-94 -/
structure Iter where
  i : ℕ
  lastIdx : ℕ
  primes : Vec ℕ
  start : ℕ
  stop : ℕ
  stopHint : ℕ
  dist : ℕ
  gen : Option PrimeGenerator

/-- iterator.cpp:36-53 -/
def Iter.make (start stopHint : ℕ) : Iter :=
  { i := 0, lastIdx := 0, primes := ⟨#[]⟩, start := start, stop := start, stopHint := stopHint, dist := 0,
    gen := none }

/-- `primes_.resize(256)` -/
def resize256 (v : Vec ℕ) : Vec ℕ := Vec.ofFn 256 (fun j => if j < v.size then v.get j else 0)

/-- iterator.cpp:59-67: one pass through the loop up to and including `fill`. -/
def Iter.refill (env : Env) (it : Iter) : M Iter := do
  match it.gen with
  | some g => do
    let r ← g.fillNext env it.primes
    pure { it with gen := some r.1, primes := r.2.1, lastIdx := r.2.2 }
  | none => do
    let h ← helperNext env it.stop it.stopHint it.dist
    let r ← (PrimeGenerator.make h.1 h.2.1).fillNext env (resize256 it.primes)
    pure { it with start := h.1, stop := h.2.1, dist := h.2.2, gen := some r.1, primes := r.2.1, lastIdx := r.2.2 }

/-- iterator.cpp:55-87 -/
def Iter.generateNext (env : Env) (it : Iter) : M Iter := do
  let it ← loop (max64 + 2) it (fun it => do
    let it ← it.refill env
    if it.lastIdx = 0 then pure (.next { it with gen := none }) else pure (.done it))
  pure { it with i := 0, lastIdx := it.lastIdx - 1 }

/-- iterator.cpp:89-109 -/
def Iter.generatePrev (env : Env) (it : Iter) : M Iter := do
  let it ← (if it.gen.isSome then do
      let p ← it.primes.rd 0
      pure { it with start := p }
    else pure it)
  let it := { it with primes := ⟨#[]⟩ }
  let it ← loop (it.start + 2) it (fun it => do
    if it.primes.size = 0 then do
      let h ← helperPrev env it.start it.stopHint it.dist
      let primes := if h.1 ≤ 2 then it.primes.push 0 else it.primes
      let r ← (PrimeGenerator.make h.1 h.2.1).fillPrev env primes
      pure (.next { it with start := h.1, stop := h.2.1, dist := h.2.2, primes := r.2, gen := none })
    else pure (.done it))
  pure { it with lastIdx := it.primes.size - 1, i := it.primes.size - 1 }

/-- include/primesieve/iterator.hpp:66-71 -/
def Iter.nextPrime (env : Env) (it : Iter) : M (ℕ × Iter) := do
  let it' ← (if it.i = it.lastIdx then it.generateNext env else pure { it with i := it.i + 1 })
  let p ← it'.primes.rd it'.i
  pure (p, it')

/-- include/primesieve/iterator.hpp:79-84 -/
def Iter.prevPrime (env : Env) (it : Iter) : M (ℕ × Iter) := do
  let it' ← (if it.i = 0 then it.generatePrev env else pure { it with i := it.i - 1 })
  let p ← it'.primes.rd it'.i
  pure (p, it')

/-! ## include/primesieve/StorePrimes.hpp -/

/-- StorePrimes.hpp:43-63 (the cast to the element type of the vector is not modelled) -/
def storePrimes (env : Env) (start stop : ℕ) (primes : Vec ℕ) : M (Vec ℕ) := do
  let start := if start > 0 then start - 1 else start
  let stop := if stop = max64 then stop - 1 else stop
  if start < stop then do
    let r ← (Iter.make start stop).nextPrime env
    loop (stop + 2) (r.1, r.2, primes) (fun s =>
      if s.1 ≤ stop then do
        let r ← s.2.1.nextPrime env
        pure (.next (r.1, r.2, s.2.2.push s.1))
      else pure (.done s.2.2))
  else pure primes

/-- StorePrimes.hpp:66-92 -/
def storeNPrimes (env : Env) (n start : ℕ) (primes : Vec ℕ) : M (Vec ℕ) := do
  if n = 0 then pure primes
  else do
    let start := if start > 0 then start - 1 else start
    let dist := u64 (n * (env.logD start + 1))
    let stop := u64 (start + dist)
    let r ← (Iter.make start stop).nextPrime env
    let r ← forUp 0 n (r.1, r.2, primes) (fun _ s => do
      let r ← s.2.1.nextPrime env
      pure (r.1, r.2, s.2.2.push s.1))
    if r.1 = max64 then .error (.thrown "cannot generate primes > 2^64") else pure r.2.2

end Psv
end PS
