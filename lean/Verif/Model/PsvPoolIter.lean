import Verif.Model.PsvPool
import Verif.Model.PsvIter

/-!
# lib/primesieve: Erat.cpp, SievingPrimes.cpp, PrimeGenerator.cpp, iterator.cpp and StorePrimes.hpp with the memory pool

The functions of `Model/PsvErat.lean` (from `Erat` on) and `Model/PsvIter.lean`, with the pointers of `Model/PsvPool.lean`
instead of lists of buckets.  An object `EratMedium` or `EratBig` has its own `MemoryPool`; `Heap` says what `new` returns for
this pool and what the memory contains.  Chunks of different pools are disjoint, so each pool is described by itself.
Destructors, which return the memory, have no effect on the results and are not modelled.
Line references are to files below /repo/lib/primesieve.
-/

namespace PS.Psv.Mem

/-- What `new` does for a memory pool, and the contents of memory. -/
structure Heap where
  al : Alloc
  mem : ℕ → Bkt

/-! ## src/Erat.cpp -/

/-- include/primesieve/Erat.hpp:94-122.  `er` holds the members that do not concern the buckets (its members
`medium.buckets` and `big.buckets` are not used). -/
structure PErat where
  er : Erat := {}
  /-- `new` for `eratMedium_.memoryPool_` -/
  mAl : Alloc
  /-- `eratMedium_.memoryPool_` -/
  mPool : Pool
  /-- `eratMedium_.buckets_` -/
  mPtrs : Vec ℕ := Vec.mk' 64 0
  /-- `new` for `eratBig_.memoryPool_` -/
  bAl : Alloc
  /-- `eratBig_.memoryPool_` -/
  bPool : Pool
  /-- `eratBig_.buckets_` -/
  bPtrs : Vec ℕ := ⟨#[]⟩

/-- Erat.cpp:57-60 and the default constructor. -/
def PErat.make (er : Erat) (hm hb : Heap) : PErat :=
  { er := er, mAl := hm.al, mPool := { mem := hm.mem }, bAl := hb.al, bPool := { mem := hb.mem } }

/-- Erat.cpp:67-95, 107-121: `init`, with EratMedium.cpp:51-62 and EratBig.cpp:37-56 for the pointers. -/
def PErat.init (env : Env) (e : PErat) (start stop sieveSize : ℕ) (pre : PreSieve) : M (PErat × PreSieve) := do
  if start > stop then pure (e, pre)
  else do
    let r ← e.er.init env start stop sieveSize pre
    let sqrtStop ← isqrt env stop
    pure ({ e with
      er := r.1
      mPtrs := if sqrtStop > r.1.maxEratSmall then Vec.mk' 64 0 else e.mPtrs
      bPtrs := if sqrtStop > r.1.maxEratMedium then Vec.mk' r.1.big.buckets.size 0 else e.bPtrs }, r.2)

/-- Erat.hpp:151-156 -/
def PErat.addSievingPrime (e : PErat) (prime : ℕ) : M PErat := do
  if prime > e.er.maxEratMedium then do
    let t ← bigAdd e.bAl e.er.big prime e.er.segmentLow ⟨e.bPool, e.bPtrs, e.er.sieve⟩
    pure { e with bPool := t.pool, bPtrs := t.ptrs }
  else if prime > e.er.maxEratSmall then do
    let t ← mediumAdd e.mAl e.er.medium.stop prime e.er.segmentLow ⟨e.mPool, e.mPtrs, e.er.sieve⟩
    pure { e with mPool := t.pool, mPtrs := t.ptrs }
  else do
    let b ← e.er.small.add prime e.er.segmentLow
    pure { e with er := { e.er with small := b } }

/-- Erat.cpp:174-182 -/
def PErat.crossOff (e : PErat) (sieve : Vec Byte) : M PErat := do
  let a ← (if e.er.small.enabled then e.er.small.crossOff sieve e.er.sieveSize else pure (e.er.small, sieve))
  let t ← (if e.er.medium.enabled then mediumCrossOff e.mAl e.er.sieveSize ⟨e.mPool, e.mPtrs, a.2⟩
    else pure ⟨e.mPool, e.mPtrs, a.2⟩)
  let u ← (if e.er.big.enabled then bigCrossOff e.bAl e.er.big ⟨e.bPool, e.bPtrs, t.sieve⟩
    else pure ⟨e.bPool, e.bPtrs, t.sieve⟩)
  pure { e with er := { e.er with small := a.1, sieve := u.sieve }, mPool := t.pool, mPtrs := t.ptrs,
                bPool := u.pool, bPtrs := u.ptrs }

/-- Erat.cpp:200-218 -/
def PErat.sieveLastSegment (e : PErat) (pre : PreSieve) : M PErat := do
  let rem := byteRemainder e.er.stop
  let d ← csub e.er.stop rem
  let dist ← csub d e.er.segmentLow
  let e := { e with er := { e.er with sieveSize := dist / 30 + 1 } }
  let sieve ← e.er.preSieve pre
  let e ← e.crossOff sieve
  let m ← unsetLarger.rd rem
  let sieve ← unset e.er.sieve (e.er.sieveSize - 1) m
  let bytes := (8 - e.er.sieveSize % 8) % 8
  let sieve ← fill0 sieve e.er.sieveSize bytes
  pure { e with er := { e.er with sieve := sieve, segmentLow := e.er.stop } }

/-- Erat.cpp:184-198 -/
def PErat.sieveSegment (e : PErat) (pre : PreSieve) : M PErat := do
  if e.er.segmentHigh = e.er.stop then e.sieveLastSegment pre
  else do
    let sieve ← e.er.preSieve pre
    let e ← e.crossOff sieve
    let dist := e.er.sieveSize * 30
    pure { e with er := { e.er with segmentLow := checkedAdd e.er.segmentLow dist,
                                    segmentHigh := min (checkedAdd e.er.segmentHigh dist) e.er.stop } }

/-! ## src/SievingPrimes.cpp -/

/-- include/primesieve/SievingPrimes.hpp:32-38 -/
structure PSieving where
  er : PErat
  i : ℕ := 0
  size : ℕ := 0
  low : ℕ := 0
  tinyIdx : ℕ := 0
  sieveIdx : ℕ := max64
  primes : Vec ℕ := Vec.mk' 128 0
  tiny : Vec Bool := ⟨#[]⟩

/-- SievingPrimes.cpp:28-36, 39-51 -/
def PSieving.init (env : Env) (s : PSieving) (erat : PErat) (pre : PreSieve) : M (PSieving × PreSieve) := do
  let stop ← isqrt env erat.er.stop
  let r ← s.er.init env (pre.maxPrime + 1) stop erat.er.getSieveSize pre
  let n ← isqrt env r.1.er.stop
  let tiny ← tinySieve n
  pure ({ s with er := r.1, tiny := tiny, tinyIdx := r.1.er.start + (1 - r.1.er.start % 2) }, r.2)

/-- SievingPrimes.cpp:84-105 -/
def PSieving.sieveSegment (s : PSieving) (pre : PreSieve) : M (Bool × PSieving) := do
  if s.er.er.hasNextSegment then do
    let high := s.er.er.segmentHigh
    let r ← loop (high + 2) (s.tinyIdx, s.er) (fun t =>
      if t.1 * t.1 ≤ high then do
        let b ← s.tiny.rd t.1
        let er ← (if b then t.2.addSievingPrime t.1 else pure t.2)
        pure (.next (t.1 + 2, er))
      else pure (.done t))
    let er ← r.2.sieveSegment pre
    pure (true, { s with er := er, sieveIdx := 0, tinyIdx := r.1 })
  else do
    let primes ← s.primes.wr 0 max64
    pure (false, { s with i := 0, size := 1, primes := primes })

/-- SievingPrimes.cpp:53-82 -/
def PSieving.fill (env : Env) (s : PSieving) (pre : PreSieve) : M PSieving := do
  let r ← (if s.sieveIdx ≥ s.er.er.sieveSize then s.sieveSegment pre else pure (true, s))
  let s := r.2
  if r.1 then do
    let f ← fillLoop env s.er.er.sieve s.er.er.sieveSize s.primes.size ⟨0, s.low, s.sieveIdx, s.primes⟩
    pure { s with i := 0, size := f.num, low := f.low, sieveIdx := f.sieveIdx, primes := f.primes }
  else pure s

/-- SievingPrimes.hpp:44-50 -/
def PSieving.next (env : Env) (s : PSieving) (pre : PreSieve) : M (ℕ × PSieving) := do
  let s ← loop (s.er.er.stop + 3) s (fun s => do
    if s.i ≥ s.size then do
      let s ← s.fill env pre
      pure (.next s)
    else pure (.done s))
  let p ← s.primes.rd s.i
  pure (p, { s with i := s.i + 1 })

/-! ## src/PrimeGenerator.cpp -/

/-- include/primesieve/PrimeGenerator.hpp:36-41 -/
structure PGen where
  er : PErat
  low : ℕ := 0
  sieveIdx : ℕ := max64
  prime : ℕ := 0
  pre : PreSieve := {}
  sp : PSieving
  isInit : Bool := false

/-- PrimeGenerator.cpp:108-110, Erat.cpp:57-60.  The object contains four memory pools. -/
def PGen.make (start stop : ℕ) (h : Fin 4 → Heap) : PGen :=
  { er := PErat.make { start := start, stop := stop } (h 0) (h 1), sp := { er := PErat.make {} (h 2) (h 3) } }

/-- PrimeGenerator.cpp:150-162 -/
def PGen.initErat (env : Env) (g : PGen) : M PGen := do
  let m ← maxCachedPrime
  let startErat := max (m + 1) g.er.er.start
  if startErat ≤ g.er.er.stop then do
    let r ← g.er.init env startErat g.er.er.stop (getSieveSize env) g.pre
    let q ← g.sp.init env r.1 r.2
    pure { g with isInit := true, er := r.1, sp := q.1, pre := q.2 }
  else pure { g with isInit := true }

/-- PrimeGenerator.cpp:113-129 -/
def PGen.initPrev (env : Env) (g : PGen) (primes : Vec ℕ) : M (PGen × Vec ℕ) := do
  let m ← maxCachedPrime
  let primes ← (if g.er.er.start ≤ m then do
      let a ← getStartIdx g.er.er.start
      let b ← getStopIdx g.er.er.stop
      forUp a b primes (fun j primes => do
        let p ← smallPrimes.rd j
        pure (primes.push p))
    else pure primes)
  let g ← g.initErat env
  pure (g, primes)

/-- PrimeGenerator.cpp:132-148 -/
def PGen.initNext (env : Env) (g : PGen) (primes : Vec ℕ) : M (PGen × Vec ℕ × ℕ) := do
  let m ← maxCachedPrime
  let r ← (if g.er.er.start ≤ m then do
      let a ← getStartIdx g.er.er.start
      let b ← getStopIdx g.er.er.stop
      let size ← csub b a
      let primes ← forUp 0 size primes (fun j primes => do
        let p ← smallPrimes.rd (a + j)
        primes.wr j p)
      pure (primes, size)
    else pure (primes, 0))
  let g ← g.initErat env
  pure (g, r.1, r.2)

/-- PrimeGenerator.cpp:191-208 -/
def PGen.sieveSegment (env : Env) (g : PGen) : M PGen := do
  let sqrtHigh ← isqrt env g.er.er.segmentHigh
  let g := { g with sieveIdx := 0, low := g.er.er.segmentLow }
  let g ← (if g.prime = 0 then do
      let r ← g.sp.next env g.pre
      pure { g with prime := r.1, sp := r.2 }
    else pure g)
  let g ← loop (sqrtHigh + 2) g (fun g => do
    if g.prime ≤ sqrtHigh then do
      let er ← g.er.addSievingPrime g.prime
      let r ← g.sp.next env g.pre
      pure (.next { g with er := er, prime := r.1, sp := r.2 })
    else pure (.done g))
  let er ← g.er.sieveSegment g.pre
  pure { g with er := er }

/-- PrimeGenerator.cpp:211-223 -/
def PGen.sieveSegmentPrev (env : Env) (g : PGen) (primes : Vec ℕ) : M (Bool × PGen × Vec ℕ) := do
  let r ← (if g.isInit then pure (g, primes) else g.initPrev env primes)
  if r.1.er.er.hasNextSegment then do
    let g ← r.1.sieveSegment env
    pure (true, g, r.2)
  else pure (false, r)

/-- PrimeGenerator.cpp:265-274 -/
def PGen.drain (env : Env) (g : PGen) (primes : Vec ℕ) : M (PGen × Vec ℕ) :=
  loop (g.er.er.sieveSize + 1) (g, primes) (fun s =>
    if s.1.sieveIdx < s.1.er.er.sieveSize then do
      let bits ← littleEndian s.1.er.er.sieve s.1.sieveIdx
      let primes ← pushBits env bits s.1.low s.2
      pure (.next ({ s.1 with low := u64 (s.1.low + 8 * 30), sieveIdx := s.1.sieveIdx + 8 }, primes))
    else pure (.done s))

/-- PrimeGenerator.cpp:261-276 -/
def PGen.fillPrev (env : Env) (g : PGen) (primes : Vec ℕ) : M (PGen × Vec ℕ) :=
  loop (g.er.er.stop + 3) (g, primes) (fun s => do
    let r ← s.1.sieveSegmentPrev env s.2
    if r.1 then do
      let t ← r.2.1.drain env r.2.2
      pure (.next t)
    else pure (.done r.2))

/-- PrimeGenerator.cpp:226-252 -/
def PGen.sieveSegmentNext (env : Env) (g : PGen) (primes : Vec ℕ) : M (Bool × PGen × Vec ℕ × ℕ) := do
  let r ← (if g.isInit then pure (g, primes, 0) else g.initNext env primes)
  if r.2.2 > 0 then pure (false, r)
  else if r.1.er.er.hasNextSegment then do
    let g ← r.1.sieveSegment env
    pure (true, g, r.2)
  else if r.1.er.er.stop ≥ max64 then do
    let primes ← r.2.1.wr 0 max64
    pure (false, r.1, primes, 1)
  else pure (false, r)

/-- PrimeGenerator.cpp:285-326 -/
def PGen.fillNext (env : Env) (g : PGen) (primes : Vec ℕ) : M (PGen × Vec ℕ × ℕ) :=
  loop (g.er.er.stop + 3) (g, primes) (fun s => do
    let r ← (if s.1.sieveIdx ≥ s.1.er.er.sieveSize then s.1.sieveSegmentNext env s.2
      else pure (true, s.1, s.2, 0))
    if r.1 then do
      let g := r.2.1
      let f ← fillLoop env g.er.er.sieve g.er.er.sieveSize r.2.2.1.size ⟨0, g.low, g.sieveIdx, r.2.2.1⟩
      let g := { g with low := f.low, sieveIdx := f.sieveIdx }
      if f.num = 0 then pure (.next (g, f.primes)) else pure (.done (g, f.primes, f.num))
    else pure (.done r.2))

/-! ## src/iterator.cpp -/

/-- include/primesieve/iterator.hpp:87-94.  `heap k` belongs to the `k`-th generator that the iterator creates. -/
structure PIter where
  i : ℕ
  lastIdx : ℕ
  primes : Vec ℕ
  start : ℕ
  stop : ℕ
  stopHint : ℕ
  dist : ℕ
  gen : Option PGen
  heap : ℕ → Fin 4 → Heap
  made : ℕ

/-- iterator.cpp:36-53 -/
def PIter.make (heap : ℕ → Fin 4 → Heap) (start stopHint : ℕ) : PIter :=
  { i := 0, lastIdx := 0, primes := ⟨#[]⟩, start := start, stop := start, stopHint := stopHint, dist := 0,
    gen := none, heap := heap, made := 0 }

/-- iterator.cpp:59-67 -/
def PIter.refill (env : Env) (it : PIter) : M PIter := do
  match it.gen with
  | some g => do
    let r ← g.fillNext env it.primes
    pure { it with gen := some r.1, primes := r.2.1, lastIdx := r.2.2 }
  | none => do
    let h ← helperNext env it.stop it.stopHint it.dist
    let r ← (PGen.make h.1 h.2.1 (it.heap it.made)).fillNext env (resize256 it.primes)
    pure { it with start := h.1, stop := h.2.1, dist := h.2.2, gen := some r.1, primes := r.2.1, lastIdx := r.2.2,
                   made := it.made + 1 }

/-- iterator.cpp:55-87 -/
def PIter.generateNext (env : Env) (it : PIter) : M PIter := do
  let it ← loop (max64 + 2) it (fun it => do
    let it ← it.refill env
    if it.lastIdx = 0 then pure (.next { it with gen := none }) else pure (.done it))
  pure { it with i := 0, lastIdx := it.lastIdx - 1 }

/-- iterator.cpp:89-109 -/
def PIter.generatePrev (env : Env) (it : PIter) : M PIter := do
  let it ← (if it.gen.isSome then do
      let p ← it.primes.rd 0
      pure { it with start := p }
    else pure it)
  let it := { it with primes := ⟨#[]⟩ }
  let it ← loop (it.start + 2) it (fun it => do
    if it.primes.size = 0 then do
      let h ← helperPrev env it.start it.stopHint it.dist
      let primes := if h.1 ≤ 2 then it.primes.push 0 else it.primes
      let r ← (PGen.make h.1 h.2.1 (it.heap it.made)).fillPrev env primes
      pure (.next { it with start := h.1, stop := h.2.1, dist := h.2.2, primes := r.2, gen := none,
                            made := it.made + 1 })
    else pure (.done it))
  pure { it with lastIdx := it.primes.size - 1, i := it.primes.size - 1 }

/-- include/primesieve/iterator.hpp:66-71 -/
def PIter.nextPrime (env : Env) (it : PIter) : M (ℕ × PIter) := do
  let it' ← (if it.i = it.lastIdx then it.generateNext env else pure { it with i := it.i + 1 })
  let p ← it'.primes.rd it'.i
  pure (p, it')

/-- include/primesieve/iterator.hpp:79-84 -/
def PIter.prevPrime (env : Env) (it : PIter) : M (ℕ × PIter) := do
  let it' ← (if it.i = 0 then it.generatePrev env else pure { it with i := it.i - 1 })
  let p ← it'.primes.rd it'.i
  pure (p, it')

/-! ## include/primesieve/StorePrimes.hpp -/

/-- StorePrimes.hpp:43-63 -/
def pStorePrimes (env : Env) (heap : ℕ → Fin 4 → Heap) (start stop : ℕ) (primes : Vec ℕ) : M (Vec ℕ) := do
  let start := if start > 0 then start - 1 else start
  let stop := if stop = max64 then stop - 1 else stop
  if start < stop then do
    let r ← (PIter.make heap start stop).nextPrime env
    loop (stop + 2) (r.1, r.2, primes) (fun s =>
      if s.1 ≤ stop then do
        let r ← s.2.1.nextPrime env
        pure (.next (r.1, r.2, s.2.2.push s.1))
      else pure (.done s.2.2))
  else pure primes

/-- StorePrimes.hpp:66-92 -/
def pStoreNPrimes (env : Env) (heap : ℕ → Fin 4 → Heap) (n start : ℕ) (primes : Vec ℕ) : M (Vec ℕ) := do
  if n = 0 then pure primes
  else do
    let start := if start > 0 then start - 1 else start
    let dist := u64 (n * (env.logD start + 1))
    let stop := u64 (start + dist)
    let r ← (PIter.make heap start stop).nextPrime env
    let r ← forUp 0 n (r.1, r.2, primes) (fun _ s => do
      let r ← s.2.1.nextPrime env
      pure (r.1, r.2, s.2.2.push s.1))
    if r.1 = max64 then .error (.thrown "cannot generate primes > 2^64") else pure r.2.2

/-! ## Loops over primes -/

/-- `for (p = it.next_prime(); p <= hi; p = it.next_prime()) s = f(p, s);` -/
def pIterFor {σ : Type} (env : Env) (it : PIter) (hi : ℕ) (s : σ) (f : ℕ → σ → M σ) : M σ := do
  let r ← it.nextPrime env
  loop (hi + 2) (r.1, r.2, s) (fun x =>
    if x.1 ≤ hi then do
      let s ← f x.1 x.2.2
      let r ← x.2.1.nextPrime env
      pure (.next (r.1, r.2, s))
    else pure (.done x.2.2))

end PS.Psv.Mem
