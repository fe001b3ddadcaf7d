import Verif.Model.Res
import Verif.Model.Omp

/-!
# Model of src/S1.cpp

The parameters `xb` and `yb` are the numbers of value bits of the types `X` and `Y`.
-/

namespace PS
open Res

variable {R : Type} [Res R]

/-- src/S1.cpp:44-52: the loop of `S1_OpenMP_thread<MU>` from index `b` on with accumulator `acc`. -/
def s1Loop (xb x y c : ℕ) (primes : Vec ℕ) (mu : ℤ) (b sf : ℕ) (acc : R) : M R :=
  if b < primes.size then do
    let p ← primes.rd b
    let next ← fit xb (sf * p)
    if next > y then pure acc
    else do
      let xn ← cdiv x next
      let ph ← phiSumR (R := R) xn c
      let acc := add acc (mul ph (ofInt (mu * next)))
      let r ← s1Loop xb x y c primes (-mu) (b + 1) next (ofInt 0)
      s1Loop xb x y c primes mu (b + 1) sf (add acc r)
  else pure acc
termination_by primes.size - b

/-- src/S1.cpp:59-79: `S1_OpenMP_master`. -/
def s1Master (R : Type) [Res R] (sched : Scheduler) (xb yb x y c : ℕ) : M R := do
  let primes ← generatePrimesT yb y
  let s1 ← phiSumR (R := R) x c
  ompFor add (ofInt 0) s1 () (sched 1 (c + 1) primes.size) (fun b _ s1 => do
    let p ← primes.rd b
    let xp ← cdiv x p
    let ph ← phiSumR (R := R) xp c
    let s1 := sub s1 (mul ph (ofInt p))
    let r ← s1Loop xb x y c primes 1 (b + 1) p (ofInt 0)
    pure ((), add s1 r))

/-- src/S1.cpp:85-111: `S1(x, y, c, threads)`. -/
def s1 (sched : Scheduler) (x y c : ℕ) : M I256 :=
  if y ≤ 2 ^ 32 - 1 then
    if x ≤ 2 ^ 63 - 1 then do
      let r ← s1Master W128 sched 63 32 x y c
      pure (toI256 r)
    else do
      let r ← s1Master I256 sched 127 32 x y c
      pure (toI256 r)
  else do
    let r ← s1Master I256 sched 127 63 x y c
    pure (toI256 r)

end PS
