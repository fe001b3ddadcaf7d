import Verif.Model.Res
import Verif.Model.Phi
import Verif.Model.Loops
import Verif.Model.Imath
import Verif.Model.Width

/-!
# Model of src/P2.cpp

`isqrt` is `Nat.sqrt` (property C32); `get_time()` is an oracle.
-/

namespace PS
open Res

theorem prevPrime_lt {n : ℕ} (h : 0 < n) : prevPrime n < n := by
  unfold prevPrime
  cases hl : ((List.range n).filter (fun p => decide p.Prime)) with
  | nil => simpa using h
  | cons a l =>
    have hm : (a :: l).getLastD 0 ∈ (a :: l) := by
      rw [List.getLastD_eq_getLast?, List.getLast?_eq_some_getLast (by simp)]
      simp [List.getLast_mem]
    rw [← hl] at hm ⊢
    exact List.mem_range.1 (List.mem_filter.1 hm).1

/-- `while (next <= lim) { s = f(next, s); next = it.next_prime(); }`, `next` being an `int64_t`. -/
def whilePrimes {σ : Type} (next : ℕ) (lim : ℤ) (s : σ) (f : ℕ → σ → σ) : M (ℕ × σ) :=
  if next ≤ lim then
    if nextPrime next < 2 ^ 63 then whilePrimes (nextPrime next) lim (f next s) f
    else .error .overflow
  else .ok (next, s)
termination_by (lim + 1 - next).toNat
decreasing_by have := lt_nextPrime next; omega

namespace P2

variable {R : Type} [Res R]

/-- The local sums of a thread, src/P2.cpp:62-63 (`prime_sum`, `correct`) and :80 (`P2_thread`). -/
structure St (R : Type) where
  p2 : R
  primeSum : R
  correct : R

/-- src/P2.cpp:87-95 and :106-114: one prime of the forward iterator. -/
def fwd (y sqrtx next : ℕ) (s : St R) : St R :=
  let s := if next > y ∧ next ≤ sqrtx then
      { s with p2 := sub s.p2 (mul s.primeSum (ofInt next)), correct := sub s.correct (ofInt next) }
    else s
  { s with primeSum := add s.primeSum (ofInt next) }

/-- src/P2.cpp:82-115: both loops of `P2_OpenMP_thread`; `x_div_prime` is `(int64_t) (x / prime)`. -/
def walk (x y z : ℕ) (start : ℤ) (sqrtx prime next : ℕ) (s : St R) : M (St R) :=
  if prime > start then
    if h : prime = 0 then .error .divZero
    else do
      let xp := wrap64 (x / prime)
      if xp < z then
        let r ← whilePrimes next xp s (fwd y sqrtx)
        let s := r.2
        let s := { s with p2 := add s.p2 (mul s.primeSum (ofInt prime)), correct := add s.correct (ofInt prime) }
        walk x y z start sqrtx (prevPrime prime) r.1 s
      else do
        let r ← whilePrimes next (z - 1) s (fwd y sqrtx)
        pure r.2
  else do
    let r ← whilePrimes next (z - 1) s (fwd y sqrtx)
    pure r.2
termination_by prime
decreasing_by exact prevPrime_lt (by omega)

/-- src/P2.cpp:55-118: `P2_OpenMP_thread`; `next < z` is written `next <= z - 1`.  `low`, `z`, `sqrtx`, `stop + 1`
and `next` are `int64_t`; `start` is the conversion of an `int128_t`, which need not fit. -/
def thread (R : Type) [Res R] (x y z distance num low : ℕ) : M (St R) := do
  let dn ← fit 63 (distance * num)
  let low ← fit 63 (low + dn)
  let hi ← fit 63 (low + distance)
  let z := min hi z
  let sqrtx ← fit 63 (Nat.sqrt x)
  let xz ← cdiv x z
  let start := wrap64 (max xz y)
  let xl ← cdiv x low
  let stop := min xl sqrtx
  let stop1 ← fit 63 (stop + 1)
  let lowm1 ← csub low 1
  let next ← fit 63 (nextPrime lowm1)
  let prime := prevPrime stop1
  walk x y z start sqrtx prime next ⟨ofInt 0, ofInt 0, ofInt 0⟩

/-- src/P2.cpp:47-50: the thread distance is doubled if the last iteration took less than 60 seconds and halved
if it took more. -/
def adjust (distance : ℤ) : Ordering → M ℤ
  | .lt => fitI 63 (distance * 2)
  | .eq => .ok distance
  | .gt => .ok (Int.tdiv distance 2)

/-- src/P2.cpp:36-53: `balanceLoad`; `time` is the comparison of the elapsed seconds with 60. -/
def balanceLoad (distance : ℤ) (low z : ℕ) (threads : ℕ) (time : Ordering) : M ℤ := do
  let minDistance : ℤ := 2 ^ 23
  let a ← fitI 63 ((z : ℤ) - low + threads)
  let maxDistance ← (if threads = 0 then .error .divZero
    else pure (Int.tdiv (a - 1) threads) : M ℤ)
  let distance ← adjust distance time
  return inBetween minDistance distance maxDistance

/-- src/primesum.cpp:113-123; the sum is an `int128_t`. -/
def primeSumTiny (x : ℕ) : M ℕ := forPrimes 0 x 0 (fun p s => fit 127 (s + p))

/-- Variables of the main loop, src/P2.cpp:139-177. -/
structure MSt (R : Type) where
  low : ℕ
  distance : ℤ
  threads : ℤ
  p2 : R
  primeSum : R
  /-- number of iterations done, to index the oracles -/
  iter : ℕ

/-- src/P2.cpp:152-177: one iteration. -/
def iteration (sched : Scheduler) (time : ℕ → Ordering) (size x y z : ℕ) (s : MSt R) : M (MSt R) := do
  if s.distance ≤ 0 then .error .neg
  else
    let d := s.distance.toNat
    let a ← fit 63 (z - s.low + d)
    let segments ← cdiv (a - 1) d
    let threads := inBetween 1 s.threads segments
    let n := threads.toNat
    let p2 ← ompFor add (ofInt 0) s.p2 () (sched (2 * s.iter + 10) 0 n) (fun i _ p2 => do
      let t ← thread R x y z d i s.low
      pure ((), add p2 t.p2))
    let (p2, primeSum) ← forUp 0 n (p2, s.primeSum) (fun i (p2, primeSum) => do
      if i ≥ size then .error .oob
      else
        let t ← thread R x y z d i s.low
        pure (add p2 (mul primeSum t.correct), add primeSum t.primeSum))
    let dn ← fit 63 (d * n)
    let low ← fit 63 (s.low + dn)
    let distance ← balanceLoad s.distance low z n (time s.iter)
    pure ⟨low, distance, threads, p2, primeSum, s.iter + 1⟩

/-- src/P2.cpp:124-180: `P2_OpenMP_master`.  `prime_sums` and `correct` have `threads` elements; thread `i`
writes element `i` only. -/
def master (R : Type) [Res R] (tiny : Vec PhiTiny.Tab) (sched : Scheduler) (time : ℕ → Ordering)
    (threads : ℤ) (x y : ℕ) : M R :=
  if x < 4 then pure (ofInt 0)
  else do
    let a ← Phi.piLegendre tiny sched y
    let b ← Phi.piLegendre tiny sched (Nat.sqrt x)
    if a ≥ b then pure (ofInt 0)
    else do
      let z ← cdiv x (max y 1)
      let z ← fit 63 z
      let f ← primeSumTiny y
      loop (z + 1) (⟨2, 2 ^ 23, threads, ofInt 0, ofInt f, 0⟩ : MSt R) (fun s =>
        if s.low < z then do
          let s ← iteration sched time threads.toNat x y z s
          pure (.next s)
        else pure (.done s.p2))

/-- src/P2.cpp:186-204: `P2(x, y, threads)`. -/
def p2 (tiny : Vec PhiTiny.Tab) (sched : Scheduler) (time : ℕ → Ordering) (threads : ℤ) (x y : ℕ) : M I256 :=
  if x ≤ 2 ^ 63 - 1 then do
    let r ← master W128 tiny sched time threads x y
    pure (toI256 r)
  else do
    let r ← master I256 tiny sched time threads x y
    pure (toI256 r)

end P2
end PS
