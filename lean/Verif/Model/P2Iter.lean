import Verif.Model.P2
import Verif.Model.GenIter

/-!
# Model of src/P2.cpp with the prime iterators

Model/P2.lean describes `it.next_prime()` and `rit.prev_prime()` by the primes they return.  Here the same functions
hold the two `primesieve::iterator` objects themselves (Model/PsvPoolIter.lean), with their generators, sieves and
memory pools.  `heap k i b` says what `new` does for the iterator `rit` (`b = false`) or `it` (`b = true`) of thread `i`
in iteration `k` of the main loop.
-/

namespace PS.P2
open Res Psv.Mem

/-- The state of an iterator loop: the prime last returned, the iterator, the variables of the loop. -/
abbrev ItSt (σ : Type) := ℕ × PIter × σ

/-- `while (next <= lim) { s = f(next, s); next = it.next_prime(); }`; `next` is an `int64_t`. -/
def whileIt {σ : Type} (env : Psv.Env) (next : ℕ) (it : PIter) (lim : ℤ) (s : σ) (f : ℕ → σ → M σ) : M (ItSt σ) :=
  loop (lim.toNat + 2) ((next, it, s) : ItSt σ) (fun x =>
    if x.1 ≤ lim then do
      let s ← f x.1 x.2.2
      let r ← x.2.1.nextPrime env
      let n ← fit 63 r.1
      pure (.next (n, r.2, s))
    else pure (.done x))

/-- src/primesum.cpp:113-123: `prime_sum_tiny`. -/
def primeSumTinyIt (env : Psv.Env) (heap : ℕ → Fin 4 → Heap) (x : ℕ) : M ℕ := do
  let r ← (PIter.make heap 0 x).nextPrime env
  let p ← fit 63 r.1
  let w ← whileIt env p r.2 x 0 (fun p s => fit 127 (s + p))
  pure w.2.2

variable {R : Type} [Res R]

/-- src/P2.cpp:82-115: both loops of `P2_OpenMP_thread`. -/
def walkIt (env : Psv.Env) (x y z : ℕ) (start : ℤ) (sqrtx : ℕ) : ℕ → ℕ → PIter → ℕ → PIter → St R → M (St R)
  | 0, _, _, _, _, _ => .error .fuel
  | fuel + 1, prime, rit, next, it, s =>
    if prime > start then
      if prime = 0 then .error .divZero
      else do
        let xp := wrap64 (x / prime)
        if xp < z then do
          let r ← whileIt env next it xp s (fun n s => pure (fwd y sqrtx n s))
          let s := r.2.2
          let s := { s with p2 := add s.p2 (mul s.primeSum (ofInt prime)), correct := add s.correct (ofInt prime) }
          let q ← rit.prevPrime env
          let p ← fit 63 q.1
          walkIt env x y z start sqrtx fuel p q.2 r.1 r.2.1 s
        else do
          let r ← whileIt env next it (z - 1) s (fun n s => pure (fwd y sqrtx n s))
          pure r.2.2
    else do
      let r ← whileIt env next it (z - 1) s (fun n s => pure (fwd y sqrtx n s))
      pure r.2.2

/-- src/P2.cpp:55-118: `P2_OpenMP_thread`; the stop hint `start` is converted to `uint64_t`. -/
def threadIt (R : Type) [Res R] (env : Psv.Env) (heap : Bool → ℕ → Fin 4 → Heap) (x y z distance num low : ℕ) :
    M (St R) := do
  let dn ← fit 63 (distance * num)
  let low ← fit 63 (low + dn)
  let hi ← fit 63 (low + distance)
  let z := min hi z
  let sqrtx ← fit 63 (Nat.sqrt x)
  let xz ← cdiv x z
  let start := wrap64 (max xz y)
  let xl ← cdiv x low
  let stop := min xl sqrtx
  let stop1 ← fit 63 (stop + 1)
  let lowm1 ← csub low 1
  let rit := PIter.make (heap false) stop1 (start % 2 ^ 64).toNat
  let it := PIter.make (heap true) lowm1 z
  let r ← it.nextPrime env
  let next ← fit 63 r.1
  let q ← rit.prevPrime env
  let prime ← fit 63 q.1
  walkIt env x y z start sqrtx (prime + 1) prime q.2 next r.2 ⟨ofInt 0, ofInt 0, ofInt 0⟩

/-- src/P2.cpp:152-177: one iteration.  A thread is a deterministic function of what `new` returns to it, so its
`prime_sums[i]` and `correct[i]` are those of the run whose result went into `p2`; if a thread throws, the parallel loop has
ended the program before. -/
def iterationIt (env : Psv.Env) (heap : ℕ → ℕ → Bool → ℕ → Fin 4 → Heap) (sched : Scheduler) (time : ℕ → Ordering)
    (size x y z : ℕ) (s : MSt R) : M (MSt R) := do
  if s.distance ≤ 0 then .error .neg
  else
    let d := s.distance.toNat
    let a ← fit 63 (z - s.low + d)
    let segments ← cdiv (a - 1) d
    let threads := inBetween 1 s.threads segments
    let n := threads.toNat
    let p2 ← ompFor add (ofInt 0) s.p2 () (sched (2 * s.iter + 10) 0 n) (fun i _ p2 => do
      let t ← threadIt R env (heap s.iter i) x y z d i s.low
      pure ((), add p2 t.p2))
    let (p2, primeSum) ← forUp 0 n (p2, s.primeSum) (fun i (p2, primeSum) => do
      if i ≥ size then .error .oob
      else
        let t ← threadIt R env (heap s.iter i) x y z d i s.low
        pure (add p2 (mul primeSum t.correct), add primeSum t.primeSum))
    let dn ← fit 63 (d * n)
    let low ← fit 63 (s.low + dn)
    let distance ← balanceLoad s.distance low z n (time s.iter)
    pure ⟨low, distance, threads, p2, primeSum, s.iter + 1⟩

/-- src/P2.cpp:124-180: `P2_OpenMP_master`. -/
def masterIt (R : Type) [Res R] (env : Psv.Env) (H : Heaps)
    (tiny : Vec PhiTiny.Tab) (sched : Scheduler) (time : ℕ → Ordering) (threads : ℤ) (x y : ℕ) : M R :=
  if x < 4 then pure (ofInt 0)
  else do
    let a ← Phi.piLegendreIt env (H.sub 0) tiny sched y
    let b ← Phi.piLegendreIt env (H.sub 1) tiny sched (Nat.sqrt x)
    if a ≥ b then pure (ofInt 0)
    else do
      let z ← cdiv x (max y 1)
      let z ← fit 63 z
      let f ← primeSumTinyIt env (H [2]) y
      loop (z + 1) (⟨2, 2 ^ 23, threads, ofInt 0, ofInt f, 0⟩ : MSt R) (fun s =>
        if s.low < z then do
          let s ← iterationIt env (fun k i b => H [3, k, i, b.toNat]) sched time threads.toNat x y z s
          pure (.next s)
        else pure (.done s.p2))

/-- src/P2.cpp:186-204: `P2(x, y, threads)`. -/
def p2It (env : Psv.Env) (H : Heaps) (tiny : Vec PhiTiny.Tab) (sched : Scheduler) (time : ℕ → Ordering) (threads : ℤ) (x y : ℕ) : M I256 :=
  if x ≤ 2 ^ 63 - 1 then do
    let r ← masterIt W128 env H tiny sched time threads x y
    pure (toI256 r)
  else do
    let r ← masterIt I256 env H tiny sched time threads x y
    pure (toI256 r)

end PS.P2
