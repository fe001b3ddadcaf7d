import Verif.Model.Phi
import Verif.Model.FactorTable
import Verif.Model.PsvPoolIter

/-!
# The tables of primesum with the primesieve library inside

Model/Generate.lean, Model/FactorTable.lean and Model/Phi.lean describe the primes they get from the primesieve library
by what they are.  Here the same functions call the library: `store_primes`, `store_n_primes` and `next_prime()` of
Model/PsvPoolIter.lean, with their generators, sieves and memory pools.
-/

namespace PS
open Psv.Mem

/-- What `new` does for the memory pools.  Every call of the library is named by the path of function calls that leads
to it; the library numbers its generators and their pools. -/
abbrev Heaps := List ℕ → ℕ → Fin 4 → Heap

/-- The calls made by the `k`-th function that is called. -/
def Heaps.sub (H : Heaps) (k : ℕ) : Heaps := fun l => H (k :: l)

/-- src/generate.cpp:25-30, include/generate.hpp:23-29; the type has `b` value bits. -/
def generatePrimesIt (env : Psv.Env) (H : Heaps) (b max : ℕ) : M (Vec ℕ) := do
  let v ← pStorePrimes env (H []) 0 max ⟨#[0]⟩
  fitVec b v

/-- src/generate.cpp:35-40. -/
def generateNPrimesIt (env : Psv.Env) (H : Heaps) (n : ℕ) : M (Vec ℕ) := do
  let v ← pStoreNPrimes env (H []) n 0 ⟨#[0]⟩
  fitVec 31 v

/-- include/generate.hpp:34-44. -/
def generatePrimeSumsIt (env : Psv.Env) (H : Heaps) (tb max : ℕ) : M (Vec ℕ) := do
  let primes ← generatePrimesIt env H tb max
  forUp 1 primes.size primes (fun i primes => do
    let a ← primes.rd i
    let b ← primes.rd (i - 1)
    let s ← fit tb (a + b)
    primes.wr i s)

/-- src/PiTable.cpp:22-39. -/
def PiTable.buildIt (env : Psv.Env) (H : Heaps) (max : ℕ) : M PiTable := do
  let v : Vec PiData := Vec.mk' (max / 64 + 1) {}
  let v ← pIterFor env (PIter.make (H []) 0 max) max v (fun p v => do
    let d ← v.rd (p / 64)
    v.wr (p / 64) { d with bits := d.bits ||| (1#64 <<< (p % 64)) })
  let (v, _) ← forUp 0 v.size (v, 0) (fun i (v, pix) => do
    let d ← v.rd i
    let v ← v.wr i { d with primeCount := pix }
    pure (v, pix + (popcnt64 d.bits).toNat))
  return ⟨v, max⟩

namespace FactorTable

/-- include/FactorTable.hpp:104-142: the operations of one thread.  The iterator has no stop hint, which stands for the
largest `uint64_t` (lib/primesieve/include/primesieve/iterator.hpp:42). -/
def threadIt (env : Psv.Env) (H : Heaps) (sqrty low high : ℕ) : M (List FOp) := do
  let n1 ← getNumber 1
  let pos ← csub n1 1
  loop (high + 2) (PIter.make (H []) pos Psv.max64, []) (fun ((it, ops) : PIter × List FOp) => do
    let r ← it.nextPrime env
    let prime ← fit 63 r.1
    let (multiple, i) ← nextMultiple prime low 1
    let minM ← fit 63 (prime * n1)
    if minM > high then pure (.done ops)
    else do
      let ops ← crossOff prime high (fun mi => .hit mi prime) multiple i ops
      if prime ≤ sqrty then do
        let square ← fit 63 (prime * prime)
        let (multiple, j) ← nextMultiple square low 0
        let ops ← crossOff square high (fun mi => .zero mi) multiple j ops
        pure (.next (r.2, ops))
      else pure (.next (r.2, ops)))

/-- include/FactorTable.hpp:87-144: the constructor. -/
def buildIt (env : Psv.Env) (H : Heaps) (tmax : ℕ) (merge : Merge) (y : ℕ) (threads : ℤ) : M (Vec ℕ) := do
  if y > max' tmax then .error (.thrown "y must be <= FactorTable::max()")
  else do
    let y := max 8 y
    let size ← getIndex y
    let sqrty := Nat.sqrt y
    let threads ← idealNumThreads threads y (10 ^ 7)
    let threads := threads.toNat
    let _ ← fit 63 (y + threads)
    let distance ← ceilDiv y threads
    let ls ← forUp 0 threads [] (fun t (ls : List (List FOp)) => do
      let dt ← fit 63 (distance * t)
      let low ← fit 63 (1 + dt)
      let e ← fit 63 (low + distance)
      let high := min e y
      let ops ← region (threadIt env (H.sub t) sqrty low high)
      pure (ls ++ [ops]))
    (merge ls).foldlM (fun t o => o.2.apply tmax t) (Vec.mk' (size + 1) tmax)

end FactorTable

namespace Phi

/-- src/phi.cpp:151-188: `phi(x, a, threads)`. -/
def phiIt (env : Psv.Env) (H : Heaps) (tiny : Vec PhiTiny.Tab) (sched : Scheduler) (x a : ℤ) : M ℤ :=
  if x < 1 then pure 0
  else if a > x then pure 1
  else if a < 1 then pure x
  else
    let x := x.toNat
    let a := a.toNat
    if PhiTiny.isPhiTiny a then PhiTiny.phiTiny tiny x a
    else do
      let primes ← generateNPrimesIt env (H.sub 0) a
      let pa ← primes.rd a
      if pa ≥ x then pure 1
      else do
        let sqrtx := Nat.sqrt x
        let pi ← PiTable.buildIt env (H.sub 1) (max sqrtx pa)
        let E : Env := ⟨primes, pi, tiny⟩
        let cache : Cache := Vec.mk' 100 ⟨#[]⟩
        let c ← PhiTiny.getC sqrtx
        let v ← pi.at sqrtx
        let piSqrtx := min v a
        let t ← PhiTiny.phiTiny tiny x c
        let sum ← fitI 63 (t - a)
        let sum ← fitI 63 (sum + piSqrtx)
        ompForM (fun s r => fitI 63 (s + r)) 0 sum cache (sched x c piSqrtx) (fun i cache sum => do
          let p ← primes.rd (i + 1)
          let x2 ← cdiv x p
          let (r, cache) ← phiRec E (i + 1) (-1) x2 i cache
          let sum ← fitI 63 (sum + r)
          pure (cache, sum))

/-- src/pi_legendre.cpp:21-30. -/
def piLegendreIt (env : Psv.Env) (H : Heaps) (tiny : Vec PhiTiny.Tab) (sched : Scheduler) (x : ℕ) : M ℤ :=
  if h : x < 2 then pure 0
  else do
    let a ← piLegendreIt env (H.sub 0) tiny sched (Nat.sqrt x)
    let r ← phiIt env (H.sub 1) tiny sched x a
    let s ← fitI 63 (r + a)
    fitI 63 (s - 1)
termination_by x
decreasing_by exact Nat.sqrt_lt_self (by omega)

end Phi
end PS
