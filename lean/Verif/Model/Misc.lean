import Verif.Base
import Verif.Model.Imath

/-!
# Model of include/fast_div.hpp, include/popcnt.hpp, `pi_bsearch` and the thread settings
-/

namespace PS

/-- include/fast_div.hpp:26-32: width in bits of `fastdiv<X>::type` where `X` has `szX` bytes. -/
def fastdivBits (szX : ℕ) : ℕ :=
  if szX / 2 ≤ 4 then 32 else if szX / 2 ≤ 8 then 64 else 8 * szX

/-- include/fast_div.hpp:34-51: `sizeof(X) == sizeof(Y)`, non-negative arguments; the casts to
`fastdiv_t` reduce modulo `2^bits`. -/
def fastDivSame (szX x y : ℕ) : M ℕ :=
  let w := fastdivBits szX
  if x ≤ 2 ^ w - 1 ∧ y ≤ 2 ^ w - 1 then cdiv (x % 2 ^ w) (y % 2 ^ w)
  else cdiv x y

/-- include/fast_div.hpp:53-67: `sizeof(X) > sizeof(Y)`, non-negative arguments. -/
def fastDivWide (szX x y : ℕ) : M ℕ :=
  let w := fastdivBits szX
  if x ≤ 2 ^ w - 1 then cdiv (x % 2 ^ w) (y % 2 ^ w)
  else cdiv x y

/-- include/popcnt.hpp:51-63 (portable version). -/
def popcnt64 (x : BitVec 64) : BitVec 64 :=
  let m1 : BitVec 64 := 0x5555555555555555#64
  let m2 : BitVec 64 := 0x3333333333333333#64
  let m4 : BitVec 64 := 0x0F0F0F0F0F0F0F0F#64
  let h01 : BitVec 64 := 0x0101010101010101#64
  let x := x - ((x >>> 1) &&& m1)
  let x := (x &&& m2) + ((x >>> 2) &&& m2)
  let x := (x + (x >>> 4)) &&& m4
  (x * h01) >>> 56

/-- `std::upper_bound` on `v[first, first + len)`: the bisection of the standard library
(`while (len > 0) { half = len / 2; if (x < *(first + half)) len = half; else { first += half + 1;
len -= half + 1; } }`). -/
def upperBound (v : Vec ℕ) (first len x : ℕ) : M ℕ :=
  if len = 0 then .ok first
  else do
    let half := len / 2
    let e ← v.rd (first + half)
    if x < e then upperBound v first half x
    else upperBound v (first + half + 1) (len - half - 1) x
termination_by len
decreasing_by all_goals omega

/-- include/imath.hpp:119-125. -/
def piBsearch (primes : Vec ℕ) (x : ℕ) : M ℕ := do
  let len ← csub primes.size 1
  let p ← upperBound primes 1 len x
  csub p 1

/-- src/primesum.cpp:154-160; `Int` in place of `int`/`int64_t` (the result of `min` fits `int`). -/
def idealNumThreads (threads sieveLimit threshold : Int) : M Int := do
  let threshold := max 1 threshold
  let q ← (if threshold = 0 then .error .divZero else pure (Int.tdiv sieveLimit threshold) : M Int)
  return max 1 (min threads q)

/-- src/primesum.cpp:36: the global `threads_`. -/
structure ThreadSt where
  threads : Int := 0

/-- src/primesum.cpp:227-235 (OpenMP build); `ompMax` is `omp_get_max_threads()`. -/
def setNumThreads (ompMax : Int) (_ : ThreadSt) (n : Int) : ThreadSt := ⟨inBetween 1 n ompMax⟩

/-- src/primesum.cpp:237-247 (OpenMP build). -/
def getNumThreads (ompMax : Int) (s : ThreadSt) : Int :=
  if s.threads ≠ 0 then s.threads else max 1 ompMax

end PS
