import Verif.Model.Int256
import Verif.Model.Int128
import Verif.Model.Width

/-!
# Model of src/phi_sum.cpp

`int128_t` arithmetic is checked (`I128.chk`), `int256_t` arithmetic is the word-level model.
`fast_div` is integer division (property C46).
-/

namespace PS

open I128 (chk)

/-- src/phi_sum.cpp:25. -/
def smallPrimes : Vec ℕ := ⟨#[0, 2, 3, 5, 7, 11, 13, 17, 19, 23]⟩

/-- src/phi_sum.cpp:27-48 (`phi_sum128<SIGN>`): `a` is the loop variable, `sum` the accumulator. -/
def phiSum128 (primes : Vec ℕ) : ℕ → Int → ℕ → Int → M Int
  | 0, sign, x, sum => do
    -- lines 43-47
    let n1 ← chk ((x : Int) + 1)
    let nn ← chk ((x : Int) * n1)
    let fx := nn >>> 1
    let t ← chk (fx * sign)
    chk (sum + t)
  | a + 1, sign, x, sum => do
    let p ← primes.rd (a + 1)
    if x ≤ p then chk (sum + sign)
    else do
      let x2 ← cdiv x p
      let r ← phiSum128 primes a (-sign) x2 0
      let t ← chk (r * p)
      let sum ← chk (sum + t)
      phiSum128 primes a sign x sum

/-- src/phi_sum.cpp:50-78 (`phi_sum256<SIGN>`). -/
def phiSum256 (primes : Vec ℕ) : ℕ → Int → ℕ → I256 → M I256
  | 0, sign, x, sum => do
    let n := I256.ofInt x
    let fx ← I256.shr (I256.mul n (I256.add n (I256.ofInt 1))) 1
    return I256.add sum (I256.mul fx (I256.ofInt sign))
  | a + 1, sign, x, sum => do
    let p ← primes.rd (a + 1)
    if x ≤ p then return I256.add sum (I256.ofInt sign)
    else do
      let x2 ← cdiv x p
      let r ← (if x2 ≤ 2 ^ 63 - 1 then do
          let r ← phiSum128 primes a (-sign) x2 0
          pure (I256.ofInt r)
        else phiSum256 primes a (-sign) x2 (I256.ofInt 0))
      let sum := I256.add sum (I256.mul r (I256.ofInt p))
      phiSum256 primes a sign x sum

/-- src/phi_sum.cpp:84-93: `phi_sum(int64_t x, int64_t a)`. -/
def phiSum64 (x a : ℕ) : M Int :=
  if x < 1 then .ok 0
  else if a < 10 then phiSum128 smallPrimes a 1 x 0
  else do
    let primes ← generateNPrimesT a
    phiSum128 primes a 1 x 0

/-- src/phi_sum.cpp:95-104: `phi_sum(int128_t x, int64_t a)`. -/
def phiSumM (x a : ℕ) : M I256 :=
  if x ≤ 2 ^ 63 - 1 then do return I256.ofInt (← phiSum64 x a)
  else if a < 10 then phiSum256 smallPrimes a 1 x (I256.ofInt 0)
  else do
    let primes ← generateNPrimesT a
    phiSum256 primes a 1 x (I256.ofInt 0)

end PS
