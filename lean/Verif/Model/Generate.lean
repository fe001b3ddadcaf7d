import Verif.Base
import Verif.Model.Loops
import Verif.Model.Misc
import Verif.Model.Width
import Mathlib.Data.Nat.Sqrt

/-!
# Model of src/generate.cpp, include/generate.hpp and PiTable

The tables of src/generate.cpp hold `int32_t`: `fit 31` and `fitI 31` report a value that does not fit.  `isqrt` is
`Nat.sqrt` (property C32).
-/

namespace PS

/-- src/generate.cpp:45-66. -/
def generatePi (max : ℕ) : M (Vec ℕ) := do
  let sqrt := Nat.sqrt max
  let size := max + 1
  let sieve : Vec ℕ := Vec.mk' size 1
  let sieve ← forUp 2 (sqrt + 1) sieve (fun i sieve => do
    let si ← sieve.rd i
    if si ≠ 0 then
      forStep (i * i) size i sieve (fun j sieve => sieve.wr j 0)
    else pure sieve)
  let pi : Vec ℕ := Vec.mk' size 0
  let (_, pi) ← forUp 2 size (0, pi) (fun i (pix, pi) => do
    let si ← sieve.rd i
    let pix ← fit 31 (pix + si)
    let pi ← pi.wr i pix
    pure (pix, pi))
  return pi

/-- src/generate.cpp:72-102. -/
def generateMoebius (max : ℕ) : M (Vec Int) := do
  let sqrt := Nat.sqrt max
  let size := max + 1
  let mu : Vec Int := Vec.mk' size 1
  let mu ← forUp 2 (sqrt + 1) mu (fun i mu => do
    let mi ← mu.rd i
    if mi = 1 then do
      let mu ← forStep i size i mu (fun j mu => do
        let m ← mu.rd j
        let d ← fitI 31 (-(i : Int))
        let m ← fitI 31 (m * d)
        mu.wr j m)
      forStep (i * i) size (i * i) mu (fun j mu => mu.wr j 0)
    else pure mu)
  forUp 2 size mu (fun i mu => do
    let m ← mu.rd i
    if m = (i : Int) then mu.wr i 1
    else if m = -(i : Int) then mu.wr i (-1)
    else if m < 0 then mu.wr i 1
    else if m > 0 then mu.wr i (-1)
    else pure mu)

/-- src/generate.cpp:107-130. -/
def generateLpf (max : ℕ) : M (Vec ℕ) := do
  let sqrt := Nat.sqrt max
  let size := max + 1
  let lpf : Vec ℕ := Vec.mk' size 1
  let lpf ← forUp 2 (sqrt + 1) lpf (fun i lpf => do
    let li ← lpf.rd i
    if li = 1 then
      forStep (i * i) size i lpf (fun j lpf => do
        let lj ← lpf.rd j
        if lj = 1 then do
          let v ← fit 31 i
          lpf.wr j v
        else pure lpf)
    else pure lpf)
  let lpf ← forUp 2 size lpf (fun i lpf => do
    let li ← lpf.rd i
    if li = 1 then do
      let v ← fit 31 i
      lpf.wr i v
    else pure lpf)
  if lpf.size > 1 then lpf.wr 1 (2 ^ 31 - 1) else pure lpf

/-- include/generate.hpp:34-44 (`generate_prime_sums<T>`); `T` has `tb` value bits. -/
def generatePrimeSums (tb max : ℕ) : M (Vec ℕ) := do
  let primes ← generatePrimesT tb max
  forUp 1 primes.size primes (fun i primes => do
    let a ← primes.rd i
    let b ← primes.rd (i - 1)
    let s ← fit tb (a + b)
    primes.wr i s)

/-- include/PiTable.hpp:43-47: `PiData`. -/
structure PiData where
  primeCount : ℕ := 0
  bits : BitVec 64 := 0#64
deriving Inhabited

/-- include/PiTable.hpp: `pi_` and `max_`. -/
structure PiTable where
  pi : Vec PiData
  max : ℕ

/-- src/PiTable.cpp:22-39. -/
def PiTable.build (max : ℕ) : M PiTable := do
  let v : Vec PiData := Vec.mk' (max / 64 + 1) {}
  let v ← forPrimes 0 max v (fun p v => do
    let d ← v.rd (p / 64)
    v.wr (p / 64) { d with bits := d.bits ||| (1#64 <<< (p % 64)) })
  let (v, _) ← forUp 0 v.size (v, 0) (fun i (v, pix) => do
    let d ← v.rd i
    let v ← v.wr i { d with primeCount := pix }
    pure (v, pix + (popcnt64 d.bits).toNat))
  return ⟨v, max⟩

/-- include/PiTable.hpp:30-36 (`operator[]`). -/
def PiTable.at (t : PiTable) (n : ℕ) : M ℕ := do
  let d ← t.pi.rd (n / 64)
  let bitmask : BitVec 64 := 0xffffffffffffffff#64 >>> (63 - n % 64)
  return d.primeCount + (popcnt64 (d.bits &&& bitmask)).toNat

/-- include/PiTable.hpp:38-41. -/
def PiTable.size (t : PiTable) : ℕ := t.max + 1

end PS
