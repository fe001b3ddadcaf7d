import Verif.Base

/-!
# Model of include/isqrt.hpp and the integer helpers of include/imath.hpp
-/

namespace PS

/-- include/isqrt.hpp:24-36 (`sqrt_helper`): binary search; `fuel` bounds the recursion depth. -/
def sqrtHelper : ℕ → ℕ → ℕ → ℕ → M ℕ
  | 0, _, _, _ => .error .fuel
  | fuel + 1, x, lo, hi =>
    if lo = hi then .ok lo
    else do
      let mid := (lo + hi + 1) / 2
      let q ← cdiv x mid
      if q < mid then do
        let h ← csub mid 1
        sqrtHelper fuel x lo h
      else sqrtHelper fuel x mid hi

/-- include/isqrt.hpp:38-42 (`ct_sqrt`). -/
def ctSqrt (x : ℕ) : M ℕ := sqrtHelper (x + 2) x 0 (x / 2 + 1)

/-- include/isqrt.hpp:64-80: `isqrt` of a type whose largest value is `tmax`; `est` is the value of
`(T) std::sqrt((double) x)`, arbitrary. -/
def isqrtM (tmax est x : ℕ) : M ℕ := do
  let sqrtMax ← ctSqrt tmax
  let r := min est sqrtMax
  -- while (r * r > x) r--;
  let r ← loop (r + 1) r (fun r =>
    if r * r > x then do return .next (← csub r 1) else return .done r)
  -- while (x - r * r > r * 2) r++;
  loop (x + 1) r (fun r => do
    let d ← csub x (r * r)
    if d > r * 2 then return .next (r + 1) else return .done r)

/-- include/imath.hpp:71-79. -/
def ipow (x n : ℕ) : ℕ := (List.range n).foldl (fun r _ => r * x) 1

/-- include/imath.hpp:82-102: `iroot<N>(x)` for `N >= 1`; `est` is the value of
`(T) std::pow((double) x, 1.0 / N)`, arbitrary. -/
def irootM (N est x : ℕ) : M ℕ := do
  let r ← loop (est + 1) est (fun r =>
    if r > 0 then do
      let q ← cdiv x r
      if ipow r (N - 1) ≤ q then return .done r else return .next (r - 1)
    else return .done r)
  loop (x + 2) r (fun r => do
    let q ← cdiv x (r + 1)
    if ipow (r + 1) (N - 1) ≤ q then return .next (r + 1) else return .done r)

/-- include/imath.hpp:30-35. -/
def ceilDiv (a b : ℕ) : M ℕ := cdiv (a + b - 1) b

/-- include/imath.hpp:104-113. -/
def inBetween (min x max : Int) : Int :=
  if x < min then min
  else if x > max then max
  else x

/-- include/imath.hpp:43-54 for a 64-bit unsigned type, `number_of_bits = 64`; the shift amounts
are 1, 2, 4, …, 32. -/
def nextPowerOf2 (x : BitVec 64) : BitVec 64 :=
  if x = 0#64 then 1#64
  else ([1, 2, 4, 8, 16, 32].foldl (fun x i => x ||| (x >>> i)) (x - 1#64)) + 1#64

/-- include/imath.hpp:56-63 for a 64-bit unsigned type. -/
def prevPowerOf2 (x : BitVec 64) : BitVec 64 :=
  let x := [1, 2, 4, 8, 16, 32].foldl (fun x i => x ||| (x >>> i)) x
  x - (x >>> 1)

end PS
