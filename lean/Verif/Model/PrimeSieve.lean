import Verif.Base
import Mathlib.Data.Nat.Prime.Infinite
import Mathlib.Data.Nat.Find

/-!
# Contract of the primesieve library

These definitions are the documented behaviour of the four calls primesum makes
(lib/primesieve/include/primesieve/iterator.hpp:32-95, lib/primesieve/include/primesieve.hpp).  The library itself is
modelled in Model/Psv*.lean; Proof/PsvStore.lean and Props/PrimeSieve.lean (C57, C58) prove that it behaves like this.
-/

namespace PS

/-- `primesieve::iterator::next_prime()` of an iterator positioned at `n`: the least prime `> n`
(lib/primesieve/include/primesieve/iterator.hpp:36, 63-71). -/
def nextPrime (n : ℕ) : ℕ := Nat.find (Nat.exists_infinite_primes (n + 1))

/-- `primesieve::iterator::prev_prime()` of an iterator positioned at `n`: the largest prime `< n`, or
0 if there is none (iterator.hpp:36, 73-84). -/
def prevPrime (n : ℕ) : ℕ := ((List.range n).filter (fun p => decide p.Prime)).getLastD 0

/-- `primesieve::generate_primes(max, &primes)` appended to `{ 0 }`, src/generate.cpp:25-30,
include/generate.hpp:23-29. -/
def generatePrimes (max : ℕ) : Vec ℕ :=
  ⟨(0 :: (List.range (max + 1)).filter (fun p => decide p.Prime)).toArray⟩

/-- The next `n` primes after `p`. -/
def primesFrom (p : ℕ) : ℕ → List ℕ
  | 0 => []
  | n + 1 => nextPrime p :: primesFrom (nextPrime p) n

/-- `primesieve::generate_n_primes(n, &primes)` appended to `{ 0 }`, src/generate.cpp:35-40. -/
def generateNPrimes (n : ℕ) : Vec ℕ := ⟨(0 :: primesFrom 0 n).toArray⟩

end PS
