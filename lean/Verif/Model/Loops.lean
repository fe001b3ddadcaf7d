import Verif.Base
import Verif.Model.PrimeSieve

/-!
# Loops over the primes
-/

namespace PS

theorem lt_nextPrime (n : ℕ) : n < nextPrime n :=
  (Nat.find_spec (Nat.exists_infinite_primes (n + 1))).1

/-- `iterator it(pos, …); while ((p = it.next_prime()) <= hi) s = f(p, s);` -/
def forPrimes {σ : Type} (pos hi : ℕ) (s : σ) (f : ℕ → σ → M σ) : M σ :=
  if nextPrime pos ≤ hi then do
    let s' ← f (nextPrime pos) s
    forPrimes (nextPrime pos) hi s' f
  else .ok s
termination_by hi - pos
decreasing_by have := lt_nextPrime pos; omega

end PS
