import Verif.Model.PsvErat

/-!
# lib/primesieve: MemoryPool.cpp, Bucket.hpp and the pointers of EratMedium.cpp and EratBig.cpp

`Model/PsvErat.lean` describes a list of buckets by the list of its contents.  Here it is described as in the
source: by an address.  Memory consists of buckets of 8192 bytes at addresses that are multiples of 8192, inside of chunks
obtained by `new char[]`.  Every access through a pointer checks that the address belongs to such a bucket and, for a
sieving prime, that it is one of the 1022 elements of its array.  The contents of new memory are arbitrary.
Pointers have 64 bits; 0 is `nullptr`.  `new` is a parameter (`Alloc`); it may fail (`std::bad_alloc`).
-/

namespace PS.Psv.Mem

/-- include/primesieve/config.hpp:28: `BUCKET_BYTES`, which is `sizeof(Bucket)`. -/
def bucketBytes : ℕ := 8192

/-- include/primesieve/Bucket.hpp:144-146: the contents of a bucket in memory. -/
structure Bkt where
  end_ : ℕ
  next : ℕ
  primes : ℕ → SievingPrime

/-- include/primesieve/MemoryPool.hpp:21-37 and the memory it manages. -/
structure Pool where
  mem : ℕ → Bkt
  /-- `memory_`: address and size of the chunks -/
  chunks : List (ℕ × ℕ) := []
  /-- `stock_` -/
  stock : ℕ := 0
  /-- `count_` -/
  count : ℕ := 64

/-- `new char[n]`: the address of a chunk of `n` bytes, from the chunks that exist; `none` is failure. -/
abbrev Alloc := List (ℕ × ℕ) → ℕ → Option ℕ

/-- A new chunk does not contain address 0, ends below `2^64` and does not overlap with any other one. -/
def Alloc.Valid (al : Alloc) : Prop :=
  ∀ chunks n a, al chunks n = some a → 0 < a ∧ a + n < 2 ^ 64 ∧ ∀ c ∈ chunks, a + n ≤ c.1 ∨ c.1 + c.2 ≤ a

/-- There is a bucket at address `b`. -/
def Pool.Has (s : Pool) (b : ℕ) : Prop := b ≠ 0 ∧ b % bucketBytes = 0 ∧ ∃ c ∈ s.chunks, c.1 ≤ b ∧ b + bucketBytes ≤ c.1 + c.2

instance (s : Pool) (b : ℕ) : Decidable (s.Has b) := by unfold Pool.Has; infer_instance

/-- Read the bucket at address `b`. -/
def rdB (s : Pool) (b : ℕ) : M Bkt := if s.Has b then .ok (s.mem b) else .error .oob

/-- Write the bucket at address `b`. -/
def wrB (s : Pool) (b : ℕ) (v : Bkt) : M Pool :=
  if s.Has b then .ok { s with mem := fun a => if a = b then v else s.mem a } else .error .oob

/-- Bucket.hpp:101: `setNext`. -/
def setNext (s : Pool) (b next : ℕ) : M Pool := do
  let v ← rdB s b
  wrB s b { v with next := next }

/-- Bucket.hpp:102: `setEnd`. -/
def setEnd (s : Pool) (b e : ℕ) : M Pool := do
  let v ← rdB s b
  wrB s b { v with end_ := e }

/-- Bucket.hpp:98, :139-146: `begin`; the array is at offset `SIEVING_PRIMES_OFFSET = 16`. -/
def begin_ (b : ℕ) : ℕ := b + 16

/-- Bucket.hpp:103: `reset`. -/
def reset (s : Pool) (b : ℕ) : M Pool := setEnd s b (begin_ b)

/-- The bucket and the index of the sieving prime at address `p`. -/
def slot (p : ℕ) : M (ℕ × ℕ) :=
  if 16 ≤ p % bucketBytes ∧ (p % bucketBytes - 16) % 8 = 0 then
    .ok (p - p % bucketBytes, (p % bucketBytes - 16) / 8)
  else .error .oob

/-- Read the sieving prime at address `p`. -/
def rdS (s : Pool) (p : ℕ) : M SievingPrime := do
  let (b, i) ← slot p
  let v ← rdB s b
  pure (v.primes i)

/-- Write the sieving prime at address `p`. -/
def wrS (s : Pool) (p : ℕ) (x : SievingPrime) : M Pool := do
  let (b, i) ← slot p
  let v ← rdB s b
  wrB s b { v with primes := fun j => if j = i then x else v.primes j }

/-- `p + 1` for a pointer to a sieving prime (8 bytes). -/
def incr (p : ℕ) : ℕ := (p + 8) % 2 ^ 64

/-- Bucket.hpp:114-123: `get`. -/
def get (p : ℕ) : M ℕ := do
  let address ← csub p 1
  pure (address - address % bucketBytes)

/-- Bucket.hpp:132-136: `isFull`. -/
def isFull (p : ℕ) : Bool := decide (p % bucketBytes = 0)

/-- src/MemoryPool.cpp:80-101: `initBuckets`. -/
def initBuckets (s : Pool) (memory bytes : ℕ) : M Pool := do
  let count := bytes / bucketBytes
  let s := { s with count := count }
  if memory % bucketBytes ≠ 0 then .error (.thrown "MemoryPool: failed to align memory!")
  else if count < 10 then .error (.thrown "MemoryPool: insufficient buckets allocated!")
  else do
    let s ← forUp 0 (count - 1) s (fun i s => do
      let s ← reset s (memory + bucketBytes * i)
      setNext s (memory + bucketBytes * i) (memory + bucketBytes * (i + 1)))
    let s ← reset s (memory + bucketBytes * (count - 1))
    let s ← setNext s (memory + bucketBytes * (count - 1)) 0
    pure { s with stock := memory }

/-- src/MemoryPool.cpp:103-108: `increaseAllocCount`; `MAX_ALLOC_BYTES` is 16 MiB. -/
def increaseAllocCount (s : Pool) : Pool :=
  { s with count := min (s.count + s.count / 8) ((1 <<< 20) * 16 / bucketBytes) }

/-- The exception of `new`. -/
def badAlloc : Err := .thrown "std::bad_alloc"

/-- src/MemoryPool.cpp:61-78: `allocateBuckets`.  `std::align` moves the address up to the next multiple of 8192 and
fails if there is no room for one bucket. -/
def allocateBuckets (al : Alloc) (s : Pool) : M Pool := do
  let bytes := s.count * bucketBytes
  match al s.chunks bytes with
  | none => .error badAlloc
  | some a => do
    let s := { s with chunks := (a, bytes) :: s.chunks }
    let diff := (bucketBytes - a % bucketBytes) % bucketBytes
    if bucketBytes + diff > bytes then .error (.thrown "MemoryPool: failed to align memory!")
    else do
      let s ← initBuckets s (a + diff) (bytes - diff)
      pure (increaseAllocCount s)

/-- src/MemoryPool.cpp:31-52: `addBucket`; returns the new value of the argument. -/
def addBucket (al : Alloc) (s : Pool) (p : ℕ) : M (Pool × ℕ) := do
  let s ← (if s.stock = 0 then allocateBuckets al s else pure s : M Pool)
  let bucket := s.stock
  let v ← rdB s bucket
  let s := { s with stock := v.next }
  let s ← setNext s bucket 0
  let s ← (if p ≠ 0 then do
      let old ← get p
      let s ← setEnd s old p
      setNext s bucket old
    else pure s : M Pool)
  pure (s, begin_ bucket)

/-- src/MemoryPool.cpp:54-59: `freeBucket`. -/
def freeBucket (s : Pool) (b : ℕ) : M Pool := do
  let s ← reset s b
  let s ← setNext s b s.stock
  pure { s with stock := b }

/-- The variables of EratMedium and EratBig that concern the buckets, and the sieve. -/
structure St where
  pool : Pool
  /-- `buckets_` -/
  ptrs : Vec ℕ
  sieve : Vec Byte

/-- `if (Bucket::isFull(buckets_[i])) memoryPool_.addBucket(buckets_[i]); buckets_[i]++->set(x);`
src/EratMedium.cpp:39-41, :70-73, src/EratBig.cpp:66-69, :126-129. -/
def push (al : Alloc) (pool : Pool) (ptrs : Vec ℕ) (i : ℕ) (x : SievingPrime) : M (Pool × Vec ℕ) := do
  let p ← ptrs.rd i
  let (pool, p) ← (if isFull p then addBucket al pool p else pure (pool, p) : M (Pool × ℕ))
  let pool ← wrS pool p x
  let ptrs ← ptrs.wr i (incr p)
  pure (pool, ptrs)

/-- `for (; prime != end; prime++)` src/EratMedium.cpp:129, src/EratBig.cpp:116. -/
def eachPrime (prime end_ : ℕ) (t : St) (f : SievingPrime → St → M St) : M St :=
  loop 1024 (prime, t) (fun ((p, t) : ℕ × St) =>
    if p ≠ end_ then do
      let x ← rdS t.pool p
      let t ← f x t
      pure (.next (incr p, t))
    else pure (.done t))

/-- `while (bucket) { crossOff(bucket); processed = bucket; bucket = bucket->next(); memoryPool_.freeBucket(processed); }`
src/EratMedium.cpp:100-118, src/EratBig.cpp:84-90. -/
def eachBucket (bucket : ℕ) (t : St) (f : ℕ → St → M St) : M St :=
  loop ((t.pool.chunks.map (·.2)).sum + 1) (bucket, t) (fun ((b, t) : ℕ × St) =>
    if b ≠ 0 then do
      let t ← f b t
      let v ← rdB t.pool b
      let pool ← freeBucket t.pool b
      pure (.next (v.next, { t with pool := pool }))
    else pure (.done t))

/-- `Bucket* bucket = Bucket::get(p); bucket->setEnd(p);` src/EratMedium.cpp:93-94, src/EratBig.cpp:80-81. -/
def close (s : Pool) (p : ℕ) : M (ℕ × Pool) := do
  let b ← get p
  let s ← setEnd s b p
  pure (b, s)

/-! ## src/EratMedium.cpp -/

/-- EratMedium.cpp:65-74: `storeSievingPrime`. -/
def mediumStore (al : Alloc) (prime multipleIndex wheelIndex : ℕ) (t : St) : M St := do
  let (pool, ptrs) ← push al t.pool t.ptrs wheelIndex (.make (prime / 30) multipleIndex wheelIndex)
  pure { t with pool := pool, ptrs := ptrs }

/-- EratMedium.cpp:129-155 (and the other seven functions): one sieving prime. -/
def mediumPrime (al : Alloc) (r sieveEnd wi : ℕ) (s : SievingPrime) (t : St) : M St := do
  let q ← mediumSwitch r s.sievingPrime sieveEnd s.multipleIndex wi t.sieve
  let (pool, ptrs) ← push al t.pool t.ptrs q.2.1 (.make s.sievingPrime q.1 q.2.1)
  pure ⟨pool, ptrs, q.2.2⟩

/-- EratMedium.cpp:123-156 (and the other seven functions): one bucket. -/
def mediumBucket (al : Alloc) (r sieveEnd b : ℕ) (t : St) : M St := do
  let v ← rdB t.pool b
  let x ← rdS t.pool (begin_ b)
  eachPrime (begin_ b) v.end_ t (fun s t => mediumPrime al r sieveEnd x.wheelIndex s t)

/-- EratMedium.cpp:76-120: `crossOff`. -/
def mediumCrossOff (al : Alloc) (sieveSize : ℕ) (t : St) : M St :=
  let buckets := t.ptrs
  forUp 0 64 { t with ptrs := Vec.mk' 64 0 } (fun i t => do
    let p ← buckets.rd i
    if p = 0 then pure t
    else do
      let (b, pool) ← close t.pool p
      eachBucket b { t with pool := pool } (fun b t => mediumBucket al (i / 8) sieveSize b t))

/-- EratMedium.cpp:51-62: `init` of a new object; the contents of memory are arbitrary. -/
def mediumInit (mem : ℕ → Bkt) : St := ⟨{ mem := mem }, Vec.mk' 64 0, ⟨#[]⟩⟩

/-- Wheel.hpp:68-98 with EratMedium.cpp:65-74: `addSievingPrime`. -/
def mediumAdd (al : Alloc) (stop prime segmentLow : ℕ) (t : St) : M St := do
  match ← W30.add stop prime segmentLow with
  | none => pure t
  | some (mi, wi) => mediumStore al prime mi wi t

/-! ## src/EratBig.cpp -/

/-- EratBig.cpp:59-70: `storeSievingPrime`; `s` holds the members that do not concern the buckets. -/
def bigStore (al : Alloc) (s : EratBig) (prime multipleIndex wheelIndex : ℕ) (t : St) : M St := do
  let (pool, ptrs) ← push al t.pool t.ptrs (multipleIndex >>> s.log2SieveSize)
    (.make (prime / 30) (multipleIndex &&& s.moduloSieveSize) wheelIndex)
  pure { t with pool := pool, ptrs := ptrs }

/-- EratBig.cpp:118-129: one sieving prime. -/
def bigPrime (al : Alloc) (s : EratBig) (pr : SievingPrime) (t : St) : M St := do
  let r ← W210.unsetBit t.sieve pr.sievingPrime pr.multipleIndex pr.wheelIndex
  let (pool, ptrs) ← push al t.pool t.ptrs (r.2.1 >>> s.log2SieveSize)
    (.make pr.sievingPrime (r.2.1 &&& s.moduloSieveSize) r.2.2)
  pure ⟨pool, ptrs, r.1⟩

/-- EratBig.cpp:108-131: one bucket. -/
def bigBucket (al : Alloc) (s : EratBig) (b : ℕ) (t : St) : M St := do
  let v ← rdB t.pool b
  eachPrime (begin_ b) v.end_ t (fun pr t => bigPrime al s pr t)

/-- EratBig.cpp:96-98: `std::rotate(begin, begin + 1, end)` -/
def rotatePtrs (b : Vec ℕ) : Vec ℕ :=
  Vec.ofFn b.size (fun i => if i + 1 < b.size then b.get (i + 1) else b.get 0)

/-- EratBig.cpp:76-99: `crossOff`. -/
def bigCrossOff (al : Alloc) (s : EratBig) (t : St) : M St := do
  let t ← loop (s.moduloSieveSize + 3) t (fun t => do
    let p ← t.ptrs.rd 0
    if p = 0 then pure (.done t)
    else do
      let (b, pool) ← close t.pool p
      let ptrs ← t.ptrs.wr 0 0
      let t ← eachBucket b { t with pool := pool, ptrs := ptrs } (fun b t => bigBucket al s b t)
      pure (.next t))
  pure { t with ptrs := rotatePtrs t.ptrs }

/-- EratBig.cpp:37-56: `init` of a new object; `s` is the result of `EratBig.init`. -/
def bigInit (mem : ℕ → Bkt) (s : EratBig) : St := ⟨{ mem := mem }, Vec.mk' s.buckets.size 0, ⟨#[]⟩⟩

/-- Wheel.hpp:68-98 with EratBig.cpp:59-70: `addSievingPrime`. -/
def bigAdd (al : Alloc) (s : EratBig) (prime segmentLow : ℕ) (t : St) : M St := do
  match ← W210.add s.stop prime segmentLow with
  | none => pure t
  | some (mi, wi) => bigStore al s prime mi wi t

end PS.Psv.Mem
