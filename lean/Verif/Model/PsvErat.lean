import Verif.Model.PsvTables
import Verif.Model.Dbl

/-!
# Model of the sieve of Eratosthenes of lib/primesieve

`Wheel.hpp`, `Bucket.hpp`, `EratSmall.cpp`, `EratMedium.cpp`, `EratBig.cpp`, `PreSieve.cpp` and `Erat.cpp`.
Line references are to files below /repo/lib/primesieve.

Pointers into the sieve array are modelled by indices into it.  A list of buckets (a singly linked list
of arrays carved out of a memory pool, MemoryPool.cpp) is modelled by the list of its buckets, the most
recent one first; `Model/PsvPool.lean` models the memory addresses, and C65 shows that the two agree.
-/

namespace PS
namespace Psv

/-- Arithmetic of `uint64_t`. -/
def u64 (n : ℕ) : ℕ := n % 2 ^ 64

/-- `std::numeric_limits<uint64_t>::max()` -/
def max64 : ℕ := 2 ^ 64 - 1

/-- What the library takes from the C++ runtime and the machine: floating point results and the CPU
description.  The theorems hold for all values (within the stated limits). -/
structure Env where
  /-- `(uint64_t) std::sqrt((double) x)` -/
  sqrtD : ℕ → ℕ
  /-- `cpuInfo.hasL1Cache()` -/
  hasL1 : Bool
  /-- `cpuInfo.l1CacheSize()` -/
  l1 : ℕ
  /-- `cpuInfo.hasPrivateL2Cache()` -/
  privateL2 : Bool
  /-- `cpuInfo.l2CacheSize()` -/
  l2 : ℕ
  /-- whether `__APPLE__` is defined and `cpuInfo.sysctlL2CacheWorkaround()` holds -/
  l2Workaround : Bool
  /-- the argument of the last call of `set_sieve_size` (primesum makes none) -/
  userSize : Option ℤ
  /-- contents of memory returned by `new uint8_t[]` -/
  junk : Byte
  /-- whether `ctz64` is defined, include/primesieve/Erat.hpp:59-75 -/
  hasCtz : Bool
  /-- `(uint64_t) log(x)`-like values of src/IteratorHelper.cpp:46, 56 -/
  prevLog : ℕ → ℕ
  prevDefault : ℕ → ℕ
  /-- `maxPrimeGap(n)`, include/primesieve/pmath.hpp:178-187 -/
  maxGap : ℕ → ℕ
  /-- `(uint64_t) std::log(x)`, include/primesieve/StorePrimes.hpp:81 -/
  logD : ℕ → ℕ

/-! ## include/primesieve/pmath.hpp -/

/-- pmath.hpp:43-50, `T = uint64_t` -/
def floorPow2 (x : ℕ) : ℕ :=
  let y := [1, 2, 4, 8, 16, 32].foldl (fun x i => x ||| (x >>> i)) x
  y - (y >>> 1)

/-- pmath.hpp:52-69, `T = uint64_t` -/
def ilog2 (x : ℕ) : ℕ :=
  ([32, 16, 8, 4, 2, 1].foldl (fun (s : ℕ × ℕ) i => if s.1 ≥ 1 <<< i then (s.1 >>> i, s.2 + i) else s) (x, 0)).2

/-- pmath.hpp:108-122, `T = uint64_t`: the floating point square root is corrected. -/
def isqrt (env : Env) (x : ℕ) : M ℕ := do
  let r := min (env.sqrtD x) 4294967295
  let r ← loop (r + 1) r (fun r => if r * r > x then .ok (.next (r - 1)) else .ok (.done r))
  loop (x + 2) r (fun r => if x - r * r > r * 2 then .ok (.next (r + 1)) else .ok (.done r))

/-- pmath.hpp:125-131 -/
def checkedAdd (x y : ℕ) : ℕ := if x ≥ max64 - y then max64 else x + y

/-- pmath.hpp:134-140 -/
def checkedSub (x y : ℕ) : ℕ := if x > y then x - y else 0

/-- pmath.hpp:142-153 -/
def inBetween (lo x hi : ℕ) : ℕ := if x < lo then lo else if x > hi then hi else x

/-! ## src/api.cpp -/

/-- src/api.cpp:141-145: the value that `set_sieve_size` stores in `sieve_size`.  A negative argument is below 8. -/
def setSieveSize (size : ℤ) : ℕ := floorPow2 (inBetween 8 size.toNat 4096)

/-- src/api.cpp:25: the variable `sieve_size`. -/
def userSieveSize (env : Env) : ℕ :=
  match env.userSize with
  | some size => setSieveSize size
  | none => 0

/-- src/api.cpp:147-223: `get_sieve_size()`; `size_t` has 64 bits. -/
def getSieveSize (env : Env) : ℕ :=
  if userSieveSize env ≠ 0 then userSieveSize env
  else if env.l2Workaround ∧ env.hasL1 ∧ env.l2 > env.l1 * 8 % 2 ^ 64 then
    floorPow2 (inBetween 8 ((env.l1 >>> 10) * 8 % 2 ^ 64) 4096)
  else if env.privateL2 then floorPow2 (inBetween 32 (((env.l2 >>> 10) + (2 ^ 64 - 1)) % 2 ^ 64) 4096)
  else if env.hasL1 then floorPow2 (inBetween 8 (env.l1 >>> 10) 4096)
  else floorPow2 (inBetween 8 32 4096)

/-! ## include/primesieve/Bucket.hpp -/

/-- Bucket.hpp:32-87 -/
structure SievingPrime where
  indexes : ℕ
  sievingPrime : ℕ
deriving Inhabited, DecidableEq

/-- Bucket.hpp:57-65 (the assertions are compiled out) -/
def SievingPrime.make (sievingPrime multipleIndex wheelIndex : ℕ) : SievingPrime :=
  ⟨(multipleIndex ||| (wheelIndex <<< 23)) % 2 ^ 32, sievingPrime % 2 ^ 32⟩

/-- Bucket.hpp:49-55 -/
def SievingPrime.upd (s : SievingPrime) (multipleIndex wheelIndex : ℕ) : SievingPrime :=
  ⟨(multipleIndex ||| (wheelIndex <<< 23)) % 2 ^ 32, s.sievingPrime⟩

/-- Bucket.hpp:72-75 -/
def SievingPrime.multipleIndex (s : SievingPrime) : ℕ := s.indexes &&& (2 ^ 23 - 1)

/-- Bucket.hpp:77-80 -/
def SievingPrime.wheelIndex (s : SievingPrime) : ℕ := s.indexes >>> 23

/-- Bucket.hpp:141: (8192 - 16) / 8 -/
def bucketSize : ℕ := 1022

/-- A list of buckets, the current one first. -/
abbrev Buckets := List (List SievingPrime)

/-- `if (Bucket::isFull(b)) memoryPool_.addBucket(b); b++->set(…)`, e.g. src/EratMedium.cpp:70-73, with
src/MemoryPool.cpp:31-52 -/
def Buckets.push (b : Buckets) (s : SievingPrime) : Buckets :=
  match b with
  | [] => [[s]]
  | c :: cs => if c.length = bucketSize then [s] :: c :: cs else (c ++ [s]) :: cs

/-! ## include/primesieve/Wheel.hpp -/

/-- The template parameters of Wheel.hpp:59. -/
structure WheelT where
  modulo : ℕ
  size : ℕ
  wheel : Vec WheelElement
  init : Vec (ℕ × ℕ)

/-- Wheel.hpp:140 -/
def W30 : WheelT := ⟨30, 8, wheel30, wheel30Init⟩

/-- Wheel.hpp:143 -/
def W210 : WheelT := ⟨210, 48, wheel210, wheel210Init⟩

/-- Wheel.hpp:130-137 without the factor `SIZE` -/
def wheelOffsets : Vec ℕ := ⟨#[
  0, 7, 0, 0, 0, 0,
  0, 0, 0, 0, 0, 1,
  0, 2, 0, 0, 0, 3,
  0, 4, 0, 0, 0, 5,
  0, 0, 0, 0, 0, 6]⟩

/-- Wheel.hpp:68-98: the arguments `multipleIndex`, `wheelIndex` of `storeSievingPrime`, or `none` if the prime
is not stored. -/
def WheelT.add (w : WheelT) (stop prime segmentLow : ℕ) : M (Option (ℕ × ℕ)) := do
  let segmentLow := u64 (segmentLow + 6)
  let quotient ← cdiv segmentLow prime
  let quotient := max prime (quotient + 1)
  let multiple := u64 (prime * quotient)
  if multiple > stop ∨ multiple < segmentLow then pure none
  else do
    let e ← w.init.rd (quotient % w.modulo)
    let nextMultiple := u64 (prime * e.1)
    if nextMultiple > stop - multiple then pure none
    else do
      let nextMultiple := u64 (nextMultiple + (multiple - segmentLow))
      let multipleIndex := nextMultiple / 30
      let o ← wheelOffsets.rd (prime % 30)
      pure (some (multipleIndex, w.size * o + e.2))

/-- `sieve[i] &= mask` -/
def unset (sieve : Vec Byte) (i : ℕ) (mask : Byte) : M (Vec Byte) := do
  let b ← sieve.rd i
  sieve.wr i (b &&& mask)

/-- Wheel.hpp:113-122: returns the sieve, `multipleIndex` and `wheelIndex`. -/
def WheelT.unsetBit (w : WheelT) (sieve : Vec Byte) (sievingPrime multipleIndex wheelIndex : ℕ) :
    M (Vec Byte × ℕ × ℕ) := do
  let e ← w.wheel.rd wheelIndex
  let sieve ← unset sieve multipleIndex e.unsetBit
  let multipleIndex := u64 (multipleIndex + e.nextMultipleFactor * sievingPrime)
  let multipleIndex := u64 (multipleIndex + e.correct)
  pure (sieve, multipleIndex, ((wheelIndex : Int) + e.next).toNat)

/-! ## src/EratSmall.cpp -/

/-- include/primesieve/EratSmall.hpp:34-38, Wheel.hpp:101 -/
structure EratSmall where
  enabled : Bool := false
  stop : ℕ := 0
  l1CacheSize : ℕ := 0
  primes : Vec SievingPrime := ⟨#[]⟩

/-- EratSmall.cpp:46-58 (`reserve` has no effect on the result; `maxPrime_` is only used in an assertion) -/
def EratSmall.init (_ : EratSmall) (stop l1CacheSize : ℕ) : EratSmall :=
  { enabled := true, stop := stop, l1CacheSize := l1CacheSize, primes := ⟨#[]⟩ }

/-- Wheel.hpp:68-98 with EratSmall.cpp:61-66 -/
def EratSmall.add (s : EratSmall) (prime segmentLow : ℕ) : M EratSmall := do
  match ← W30.add s.stop prime segmentLow with
  | none => pure s
  | some (mi, wi) => pure { s with primes := s.primes.push (.make (prime / 30) mi wi) }

/-- EratSmall.cpp:116-123: one pass through the body of the unrolled loop of residue class `r`. -/
def smallUnroll (sp r p : ℕ) (sieve : Vec Byte) : M (Vec Byte) :=
  forUp 0 8 sieve (fun j sieve => do
    let e ← smallUnrolled.rd (8 * r + j)
    unset sieve (p + (sp * e.1 + e.2.1)) e.2.2)

/-- EratSmall.cpp:114-124: the unrolled loop of residue class `r`. -/
def smallInner (sp r loopEnd p : ℕ) (sieve : Vec Byte) : M (ℕ × Vec Byte) :=
  loop (loopEnd + 1) (p, sieve) (fun s =>
    if s.1 < loopEnd then do
      let sieve ← smallUnroll sp r s.1 s.2
      let b ← smallLoopAdd.rd r
      pure (.next (s.1 + (sp * 30 + b), sieve))
    else pure (.done s))

/-- EratSmall.cpp:107-312: the `switch`, started at the case `wi`.  Returns `p - sieveEnd`, the wheel index and
the sieve. -/
def smallSwitch (sp loopEnd sieveEnd p wi : ℕ) (sieve : Vec Byte) : M (ℕ × ℕ × Vec Byte) :=
  loop (30 * sieveEnd + 100) (p, wi, sieve) (fun s => do
    let t ← (if s.2.1 % 8 = 0 then smallInner sp (s.2.1 / 8) loopEnd s.1 s.2.2 else pure (s.1, s.2.2))
    if t.1 ≥ sieveEnd then pure (.done (t.1 - sieveEnd, s.2.1, t.2))
    else do
      let e ← smallStep.rd s.2.1
      let sieve ← unset t.2 t.1 e.1
      pure (.next (t.1 + (sp * e.2.1 + e.2.2), (if s.2.1 % 8 = 7 then s.2.1 - 7 else s.2.1 + 1), sieve)))

/-- EratSmall.cpp:97-313: the body of the loop over the sieving primes, for the bytes `lo ≤ i < hi`. -/
def smallPrime (lo hi : ℕ) (s : SievingPrime) (sieve : Vec Byte) : M (SievingPrime × Vec Byte) := do
  let sp := s.sievingPrime
  let maxLoopDist := sp * 28 + 27
  let loopEnd := max hi (lo + maxLoopDist) - maxLoopDist
  let p := lo + s.multipleIndex
  if s.wheelIndex < 64 then do
    let r ← smallSwitch sp loopEnd hi p s.wheelIndex sieve
    pure (s.upd r.1 r.2.1, r.2.2)
  else .error .oob

/-- EratSmall.cpp:93-314 -/
def smallCross (lo hi : ℕ) (primes : Vec SievingPrime) (sieve : Vec Byte) :
    M (Vec SievingPrime × Vec Byte) :=
  forUp 0 primes.size (primes, sieve) (fun j s => do
    let pr ← s.1.rd j
    let r ← smallPrime lo hi pr s.2
    let primes ← s.1.wr j r.1
    pure (primes, r.2))

/-- EratSmall.cpp:78-86 -/
def EratSmall.crossOff (s : EratSmall) (sieve : Vec Byte) (sieveSize : ℕ) : M (EratSmall × Vec Byte) := do
  let r ← forStep 0 sieveSize s.l1CacheSize (s.primes, sieve) (fun i t =>
    smallCross i (min (i + s.l1CacheSize) sieveSize) t.1 t.2)
  pure ({ s with primes := r.1 }, r.2)

/-! ## src/EratMedium.cpp -/

/-- include/primesieve/EratMedium.hpp, Wheel.hpp:101 -/
structure EratMedium where
  enabled : Bool := false
  stop : ℕ := 0
  buckets : Vec Buckets := Vec.mk' 64 []

/-- EratMedium.cpp:51-62 -/
def EratMedium.init (_ : EratMedium) (stop : ℕ) : EratMedium :=
  { enabled := true, stop := stop, buckets := Vec.mk' 64 [] }

/-- `buckets_[i]` gets one more sieving prime. -/
def pushAt (b : Vec Buckets) (i : ℕ) (s : SievingPrime) : M (Vec Buckets) := do
  let l ← b.rd i
  b.wr i (l.push s)

/-- Wheel.hpp:68-98 with EratMedium.cpp:65-74 -/
def EratMedium.add (s : EratMedium) (prime segmentLow : ℕ) : M EratMedium := do
  match ← W30.add s.stop prime segmentLow with
  | none => pure s
  | some (mi, wi) => do
    let b ← pushAt s.buckets wi (.make (prime / 30) mi wi)
    pure { s with buckets := b }

/-- EratMedium.cpp:139-154 and the corresponding lines of the other seven functions: the `switch` of residue
class `r`, started at the case `wi`.  Returns `p - sieveEnd`, the wheel index and the sieve. -/
def mediumSwitch (r sp sieveEnd p wi : ℕ) (sieve : Vec Byte) : M (ℕ × ℕ × Vec Byte) :=
  if wi / 8 ≠ r then .error .oob   -- UNREACHABLE
  else loop (30 * sieveEnd + 100) (p, wi, sieve) (fun s => do
    if s.1 ≥ sieveEnd then pure (.done (s.1 - sieveEnd, s.2.1, s.2.2))
    else do
      let e ← mediumStep.rd s.2.1
      let sieve ← unset s.2.2 s.1 e.1
      pure (.next (s.1 + (sp * e.2.1 + e.2.2), (if s.2.1 % 8 = 7 then s.2.1 - 7 else s.2.1 + 1), sieve)))

/-- EratMedium.cpp:129-155 (and the other seven functions): one sieving prime. -/
def mediumPrime (r sieveEnd wi : ℕ) (s : SievingPrime) (t : Vec Buckets × Vec Byte) :
    M (Vec Buckets × Vec Byte) := do
  let q ← mediumSwitch r s.sievingPrime sieveEnd s.multipleIndex wi t.2
  let b ← pushAt t.1 q.2.1 (.make s.sievingPrime q.1 q.2.1)
  pure (b, q.2.2)

/-- EratMedium.cpp:123-156 (and the other seven functions): one bucket.  The wheel index of the first sieving
prime is used for all of them. -/
def mediumBucket (r sieveEnd : ℕ) (bucket : List SievingPrime) (t : Vec Buckets × Vec Byte) :
    M (Vec Buckets × Vec Byte) :=
  match bucket with
  | [] => pure t
  | s :: _ => bucket.foldlM (fun t s' => mediumPrime r sieveEnd s.wheelIndex s' t) t

/-- EratMedium.cpp:76-120 -/
def EratMedium.crossOff (s : EratMedium) (sieve : Vec Byte) (sieveSize : ℕ) :
    M (EratMedium × Vec Byte) := do
  let r ← forUp 0 64 ((Vec.mk' 64 [] : Vec Buckets), sieve) (fun i t => do
    let l ← s.buckets.rd i
    l.foldlM (fun t bucket => mediumBucket (i / 8) sieveSize bucket t) t)
  pure ({ s with buckets := r.1 }, r.2)

/-! ## src/EratBig.cpp -/

/-- include/primesieve/EratBig.hpp, Wheel.hpp:101 -/
structure EratBig where
  enabled : Bool := false
  stop : ℕ := 0
  log2SieveSize : ℕ := 0
  moduloSieveSize : ℕ := 0
  buckets : Vec Buckets := ⟨#[]⟩

/-- EratBig.cpp:37-56 -/
def EratBig.init (_ : EratBig) (stop sieveSize maxPrime : ℕ) : M EratBig := do
  let log2SieveSize := ilog2 sieveSize
  let e ← W210.wheel.rd 0
  let maxFactor := e.nextMultipleFactor
  let maxSievingPrime := maxPrime / 30
  let maxNextMultiple := maxSievingPrime * maxFactor + maxFactor
  let maxMultipleIndex := sieveSize - 1 + maxNextMultiple
  let maxSegmentCount := maxMultipleIndex >>> log2SieveSize
  pure { enabled := true, stop := stop, log2SieveSize := log2SieveSize, moduloSieveSize := sieveSize - 1,
         buckets := Vec.mk' (maxSegmentCount + 1) [] }

/-- EratBig.cpp:63-69 and 123-129: file a sieving prime under the segment of its next multiple. -/
def EratBig.store (s : EratBig) (b : Vec Buckets) (sievingPrime multipleIndex wheelIndex : ℕ) :
    M (Vec Buckets) :=
  pushAt b (multipleIndex >>> s.log2SieveSize)
    (.make sievingPrime (multipleIndex &&& s.moduloSieveSize) wheelIndex)

/-- Wheel.hpp:68-98 with EratBig.cpp:59-70 -/
def EratBig.add (s : EratBig) (prime segmentLow : ℕ) : M EratBig := do
  match ← W210.add s.stop prime segmentLow with
  | none => pure s
  | some (mi, wi) => do
    let b ← s.store s.buckets (prime / 30) mi wi
    pure { s with buckets := b }

/-- EratBig.cpp:118-129: one sieving prime. -/
def EratBig.prime (s : EratBig) (pr : SievingPrime) (t : Vec Buckets × Vec Byte) :
    M (Vec Buckets × Vec Byte) := do
  let r ← W210.unsetBit t.2 pr.sievingPrime pr.multipleIndex pr.wheelIndex
  let b ← s.store t.1 pr.sievingPrime r.2.1 r.2.2
  pure (b, r.1)

/-- EratBig.cpp:78-91 -/
def EratBig.rounds (s : EratBig) (sieve : Vec Byte) : M (Vec Buckets × Vec Byte) :=
  loop (s.moduloSieveSize + 3) (s.buckets, sieve) (fun t => do
    let l ← t.1.rd 0
    match l with
    | [] => pure (.done t)
    | _ => do
      let b ← t.1.wr 0 []
      let t' ← l.foldlM (fun t bucket => bucket.foldlM (fun t pr => s.prime pr t) t) (b, t.2)
      pure (.next t'))

/-- EratBig.cpp:96-98: `std::rotate(begin, begin + 1, end)` -/
def rotate1 (b : Vec Buckets) : Vec Buckets :=
  Vec.ofFn b.size (fun i => if i + 1 < b.size then b.get (i + 1) else b.get 0)

/-- EratBig.cpp:76-99 -/
def EratBig.crossOff (s : EratBig) (sieve : Vec Byte) : M (EratBig × Vec Byte) := do
  let r ← s.rounds sieve
  pure ({ s with buckets := rotate1 r.1 }, r.2)

/-! ## src/PreSieve.cpp -/

/-- include/primesieve/PreSieve.hpp:44-47 -/
structure PreSieve where
  maxPrime : ℕ := 0
  primeProduct : ℕ := 0
  size : ℕ := 0
  buffer : Vec Byte := ⟨#[]⟩

/-- PreSieve.cpp:46 -/
def prePrimes : Vec ℕ := ⟨#[7, 11, 13, 17, 19]⟩

/-- PreSieve.cpp:49 -/
def primeProducts : Vec ℕ := ⟨#[210, 2310, 30030, 510510, 9699690]⟩

/-- PreSieve.cpp:74-94 -/
def PreSieve.initBuffer (maxPrime primeProduct : ℕ) : M PreSieve := do
  let size := primeProduct / 30
  let small : EratSmall := EratSmall.init {} (primeProduct * 2) size
  let small ← forUp 0 5 small (fun i small => do
    let prime ← prePrimes.rd i
    if prime ≤ maxPrime then small.add prime primeProduct else pure small)
  let r ← small.crossOff (Vec.mk' size 0xff) size
  pure { maxPrime := maxPrime, primeProduct := primeProduct, size := size, buffer := r.2 }

/-- PreSieve.cpp:64-65: `lower_bound(begin, end - 1, threshold)` -/
def lowerBound (threshold : ℕ) : ℕ :=
  ((List.range 4).find? (fun i => threshold ≤ primeProducts.get i)).getD 4

/-- PreSieve.cpp:55-69 -/
def PreSieve.init (env : Env) (s : PreSieve) (start stop : ℕ) : M PreSieve := do
  let dist ← csub stop start
  let sq ← isqrt env stop
  let threshold := max dist sq / 100
  let i := lowerBound threshold
  let p ← prePrimes.rd i
  if p > s.maxPrime then do
    let q ← primeProducts.rd i
    PreSieve.initBuffer p q
  else pure s

/-- `copy_n(&buffer[i], n, &sieve[j])` -/
def copyN (buffer : Vec Byte) (i n : ℕ) (sieve : Vec Byte) (j : ℕ) : M (Vec Byte) :=
  forUp 0 n sieve (fun k sieve => do
    let b ← buffer.rd (i + k)
    sieve.wr (j + k) b)

/-- PreSieve.cpp:97-122 -/
def PreSieve.copy (s : PreSieve) (sieve : Vec Byte) (sieveSize segmentLow : ℕ) : M (Vec Byte) := do
  if s.primeProduct = 0 then .error .divZero
  else do
    let i := (segmentLow % s.primeProduct) / 30
    let sizeLeft ← csub s.size i
    if sieveSize ≤ sizeLeft then copyN s.buffer i sieveSize sieve 0
    else do
      let sieve ← copyN s.buffer i sizeLeft sieve 0
      let r ← loop (sieveSize + 1) (sizeLeft, sieve) (fun t =>
        if t.1 + s.size < sieveSize then do
          let sieve ← copyN s.buffer 0 s.size t.2 t.1
          pure (.next (t.1 + s.size, sieve))
        else pure (.done t))
      let n ← csub sieveSize r.1
      copyN s.buffer 0 n r.2 r.1

/-! ## src/Erat.cpp -/

/-- include/primesieve/Erat.hpp:94-122.  `preSieve_` is a pointer to an object of the caller and is passed as an
argument instead. -/
structure Erat where
  start : ℕ := 0
  stop : ℕ := 0
  sieveSize : ℕ := 0
  segmentLow : ℕ := max64
  segmentHigh : ℕ := 0
  sieve : Vec Byte := ⟨#[]⟩
  maxPreSieve : ℕ := 0
  maxEratSmall : ℕ := 0
  maxEratMedium : ℕ := 0
  small : EratSmall := {}
  medium : EratMedium := {}
  big : EratBig := {}

/-- Erat.cpp:150-155 -/
def byteRemainder (n : ℕ) : ℕ := if n % 30 ≤ 6 then n % 30 + 30 else n % 30

/-- Erat.cpp:130-143 -/
def getL1CacheSize (env : Env) (sieveSize : ℕ) : ℕ :=
  if env.hasL1 then inBetween (8 <<< 10) (min env.l1 sieveSize) (4096 <<< 10) else sieveSize

/-- Erat.cpp:112: `FACTOR_ERATSMALL` is 0.175, include/primesieve/config.hpp:53 -/
def eratSmallMax (l1CacheSize : ℕ) : M ℕ := ((Dbl.ofInt l1CacheSize).mul (.round (175 / 1000))).toUInt64

/-- Erat.cpp:113: `FACTOR_ERATMEDIUM` is 5.0, include/primesieve/config.hpp:67 -/
def eratMediumMax (sieveSize : ℕ) : M ℕ := ((Dbl.ofInt sieveSize).mul (.fin 5)).toUInt64

/-- Erat.cpp:107-121 -/
def Erat.initErat (env : Env) (s : Erat) : M Erat := do
  let sqrtStop ← isqrt env s.stop
  let l1CacheSize := getL1CacheSize env s.sieveSize
  let maxEratSmall ← eratSmallMax l1CacheSize
  let maxEratMedium ← eratMediumMax s.sieveSize
  let small := if sqrtStop > s.maxPreSieve then s.small.init s.stop l1CacheSize else s.small
  let medium := if sqrtStop > maxEratSmall then s.medium.init s.stop else s.medium
  let big ← (if sqrtStop > maxEratMedium then s.big.init s.stop s.sieveSize sqrtStop else pure s.big)
  pure { s with maxEratSmall := maxEratSmall, maxEratMedium := maxEratMedium,
                small := small, medium := medium, big := big }

/-- Erat.cpp:97-105 -/
def initSieveSize (sieveSize : ℕ) : ℕ := inBetween 8 (floorPow2 sieveSize) 4096 * 1024

/-- Erat.cpp:67-95 -/
def Erat.init (env : Env) (s : Erat) (start stop sieveSize : ℕ) (pre : PreSieve) : M (Erat × PreSieve) := do
  if start > stop then pure (s, pre)
  else do
    let pre ← pre.init env start stop
    let size := initSieveSize sieveSize
    let rem := byteRemainder start
    let dist := size * 30 + 6
    let segmentLow ← csub start rem
    let segmentHigh := min (checkedAdd segmentLow dist) stop
    let s ← Erat.initErat env { s with
      start := start, stop := stop, maxPreSieve := pre.maxPrime, sieveSize := size,
      sieve := Vec.mk' size env.junk, segmentLow := segmentLow, segmentHigh := segmentHigh }
    pure (s, pre)

/-- Erat.cpp:145-148 -/
def Erat.hasNextSegment (s : Erat) : Bool := decide (s.segmentLow < s.stop)

/-- Erat.hpp:151-156 -/
def Erat.addSievingPrime (s : Erat) (prime : ℕ) : M Erat := do
  if prime > s.maxEratMedium then do
    let b ← s.big.add prime s.segmentLow
    pure { s with big := b }
  else if prime > s.maxEratSmall then do
    let b ← s.medium.add prime s.segmentLow
    pure { s with medium := b }
  else do
    let b ← s.small.add prime s.segmentLow
    pure { s with small := b }

/-- Erat.cpp:160-172 -/
def Erat.preSieve (s : Erat) (pre : PreSieve) : M (Vec Byte) := do
  let sieve ← pre.copy s.sieve s.sieveSize s.segmentLow
  if s.segmentLow ≤ s.start then do
    let sieve ← (if s.start ≤ s.maxPreSieve then sieve.wr 0 0xff else pure sieve)
    let m ← unsetSmaller.rd (byteRemainder s.start)
    unset sieve 0 m
  else pure sieve

/-- Erat.cpp:174-182 -/
def Erat.crossOff (s : Erat) (sieve : Vec Byte) : M Erat := do
  let a ← (if s.small.enabled then s.small.crossOff sieve s.sieveSize else pure (s.small, sieve))
  let b ← (if s.medium.enabled then s.medium.crossOff a.2 s.sieveSize else pure (s.medium, a.2))
  let c ← (if s.big.enabled then s.big.crossOff b.2 else pure (s.big, b.2))
  pure { s with small := a.1, medium := b.1, big := c.1, sieve := c.2 }

/-- `fill_n(&sieve[i], n, 0)` -/
def fill0 (sieve : Vec Byte) (i n : ℕ) : M (Vec Byte) :=
  forUp 0 n sieve (fun k sieve => sieve.wr (i + k) 0)

/-- Erat.cpp:200-218 -/
def Erat.sieveLastSegment (s : Erat) (pre : PreSieve) : M Erat := do
  let rem := byteRemainder s.stop
  let d ← csub s.stop rem
  let dist ← csub d s.segmentLow
  let s := { s with sieveSize := dist / 30 + 1 }
  let sieve ← s.preSieve pre
  let s ← s.crossOff sieve
  let m ← unsetLarger.rd rem
  let sieve ← unset s.sieve (s.sieveSize - 1) m
  let bytes := (8 - s.sieveSize % 8) % 8
  let sieve ← fill0 sieve s.sieveSize bytes
  pure { s with sieve := sieve, segmentLow := s.stop }

/-- Erat.cpp:184-198 -/
def Erat.sieveSegment (s : Erat) (pre : PreSieve) : M Erat := do
  if s.segmentHigh = s.stop then s.sieveLastSegment pre
  else do
    let sieve ← s.preSieve pre
    let s ← s.crossOff sieve
    let dist := s.sieveSize * 30
    pure { s with segmentLow := checkedAdd s.segmentLow dist,
                  segmentHigh := min (checkedAdd s.segmentHigh dist) s.stop }

/-- Index of the lowest set bit (`__builtin_ctzll`, `std::countr_zero`). -/
def ctz64 (bits : ℕ) : M ℕ :=
  match (List.range 64).find? (fun k => bits.testBit k) with
  | some k => .ok k
  | none => .error .shift   -- undefined for 0

/-- Erat.hpp:133-149 -/
def nextPrime (env : Env) (bits low : ℕ) : M ℕ := do
  if env.hasCtz then do
    let bitIndex ← ctz64 bits
    let bitValue ← bitValues.rd bitIndex
    pure (u64 (low + bitValue))
  else do
    let hash := u64 ((bits ^^^ u64 (bits + max64)) * 0x3F08A4C6ACB9DBD) >>> 58
    let bitValue ← bruijnBitValues.rd hash
    pure (u64 (low + bitValue))

/-- Erat.hpp:164-167 -/
def Erat.getSieveSize (s : Erat) : ℕ := s.sieveSize >>> 10

/-- include/primesieve/littleendian_cast.hpp: the eight bytes from `i` on as a `uint64_t`. -/
def littleEndian (sieve : Vec Byte) (i : ℕ) : M ℕ :=
  forUp 0 8 0 (fun k n => do
    let b ← sieve.rd (i + k)
    pure (n + b.toNat <<< (8 * k)))

end Psv
end PS
