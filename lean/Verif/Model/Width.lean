import Verif.Base
import Verif.Model.PrimeSieve

/-!
# Integer types of limited width

A type is given by its number of value bits: 31 for `int32_t`, 32 for `uint32_t`, 63 for `int64_t`, 127 for
`int128_t`.  A value that the type cannot hold is reported as `.overflow`: for an arithmetic operation of a signed
type C++ leaves the result undefined, a conversion would silently change the value.
-/

namespace PS

/-- The natural number `n` stored in a type with `b` value bits. -/
def fit (b n : ℕ) : M ℕ := if n < 2 ^ b then .ok n else .error .overflow

/-- The integer `z` stored in a signed type with `b` value bits. -/
def fitI (b : ℕ) (z : ℤ) : M ℤ := if -2 ^ b ≤ z ∧ z < 2 ^ b then .ok z else .error .overflow

/-- The conversion `(int64_t) n`, which keeps the low 64 bits. -/
def wrap64 (n : ℕ) : ℤ := Int.bmod n (2 ^ 64)

/-- Every element stored in a type with `b` value bits. -/
def fitVec (b : ℕ) (v : Vec ℕ) : M (Vec ℕ) :=
  if ∀ i < v.size, v.get i < 2 ^ b then .ok v else .error .overflow

/-- Every element converted to an unsigned type with `b` bits, which keeps the low bits. -/
def truncVec (b : ℕ) (v : Vec ℕ) : Vec ℕ := Vec.ofFn v.size (fun i => v.get i % 2 ^ b)

/-- src/generate.cpp:25-30 (`b = 31`), include/generate.hpp:23-29 (`generate_primes<T>`). -/
def generatePrimesT (b max : ℕ) : M (Vec ℕ) := fitVec b (generatePrimes max)

/-- src/generate.cpp:35-40. -/
def generateNPrimesT (n : ℕ) : M (Vec ℕ) := fitVec 31 (generateNPrimes n)

end PS
