import Verif.Model.Generate
import Verif.Model.PhiTiny
import Verif.Model.Omp

/-!
# Model of src/phi.cpp and src/pi_legendre.cpp

The `int64_t` variables are checked for overflow; `isqrt` is `Nat.sqrt` (property C32).  The cache holds `uint16_t`.
-/

namespace PS

instance {α : Type} : Inhabited (Vec α) := ⟨⟨#[]⟩⟩

/-- `std::vector<T>::resize(n, x)`. -/
def Vec.resize {α : Type} [Inhabited α] (v : Vec α) (n : ℕ) (x : α) : Vec α :=
  Vec.ofFn n (fun i => if i < v.size then v.get i else x)

namespace Phi

/-- src/phi.cpp:114-115: the shared tables of a `PhiCache` (and the global `phiTiny`). -/
structure Env where
  primes : Vec ℕ
  pi : PiTable
  tiny : Vec PhiTiny.Tab

/-- src/phi.cpp:113: `array<vector<uint16_t>, MAX_A>`. -/
abbrev Cache := Vec (Vec ℕ)

/-- src/phi.cpp:129-133. -/
def isPix (E : Env) (x a : ℕ) : M Bool :=
  if x < E.pi.size then do
    let p ← E.primes.rd (a + 1)
    let q ← fit 63 (p * p)
    pure (decide (x < q))
  else pure false

/-- src/phi.cpp:135-140: `is_cached` and the value `cache_[a][x]`; 0 stands for "not cached". -/
def lookup (cache : Cache) (x a : ℕ) : M ℕ :=
  if a < cache.size then do
    let row ← cache.rd a
    if x < row.size then row.rd x else pure 0
  else pure 0

/-- src/phi.cpp:117-127. -/
def updateCache (cache : Cache) (x a : ℕ) (sum : ℤ) : M Cache :=
  if a < cache.size ∧ x ≤ 2 ^ 16 - 1 then do
    let row ← cache.rd a
    let row := if x ≥ row.size then row.resize (x + 1) 0 else row
    let row ← row.wr x (sum.natAbs % 2 ^ 16)
    cache.wr a row
  else pure cache

/-- src/phi.cpp:65-109: `PhiCache::phi<SIGN>`; `fuel` bounds the recursion depth. -/
def phiRec (E : Env) : ℕ → ℤ → ℕ → ℕ → Cache → M (ℤ × Cache)
  | 0, _, _, _, _ => .error .fuel
  | fuel + 1, sign, x, a, cache => do
    let pa ← E.primes.rd a
    if x ≤ pa then pure (sign, cache)
    else if PhiTiny.isPhiTiny a then do
      let t ← PhiTiny.phiTiny E.tiny x a
      pure (t * sign, cache)
    else if ← isPix E x a then do
      let v ← E.pi.at x
      pure (((v : ℤ) - a + 1) * sign, cache)
    else do
      let v ← lookup cache x a
      if v ≠ 0 then pure ((v : ℤ) * sign, cache)
      else do
        let sqrtx := Nat.sqrt x
        let c ← PhiTiny.getC sqrtx
        let piSqrtx ← (if sqrtx < E.pi.size then do
            let v ← E.pi.at sqrtx
            pure (min v a)
          else pure a : M ℕ)
        let sum ← fitI 63 (((piSqrtx : ℤ) - a) * sign)
        let t ← PhiTiny.phiTiny E.tiny x c
        let sum ← fitI 63 (sum + t * sign)
        let (sum, cache) ← forUp c piSqrtx (sum, cache) (fun i (sum, cache) => do
          let p ← E.primes.rd (i + 1)
          let x2 ← cdiv x p
          if ← isPix E x2 i then do
            let v ← E.pi.at x2
            let sum ← fitI 63 (sum + ((v : ℤ) - i + 1) * -sign)
            pure (sum, cache)
          else do
            let (r, cache) ← phiRec E fuel (-sign) x2 i cache
            let sum ← fitI 63 (sum + r)
            pure (sum, cache))
        let cache ← updateCache cache x a sum
        pure (sum, cache)

/-- src/phi.cpp:151-188: `phi(x, a, threads)`; the distribution of the iterations over threads is chosen by
`sched`. -/
def phi (tiny : Vec PhiTiny.Tab) (sched : Scheduler) (x a : ℤ) : M ℤ :=
  if x < 1 then pure 0
  else if a > x then pure 1
  else if a < 1 then pure x
  else
    let x := x.toNat
    let a := a.toNat
    if PhiTiny.isPhiTiny a then PhiTiny.phiTiny tiny x a
    else do
      let primes ← generateNPrimesT a
      let pa ← primes.rd a
      if pa ≥ x then pure 1
      else do
        let sqrtx := Nat.sqrt x
        let pi ← PiTable.build (max sqrtx pa)
        let E : Env := ⟨primes, pi, tiny⟩
        let cache : Cache := Vec.mk' 100 ⟨#[]⟩
        let c ← PhiTiny.getC sqrtx
        let v ← pi.at sqrtx
        let piSqrtx := min v a
        let t ← PhiTiny.phiTiny tiny x c
        let sum ← fitI 63 (t - a)
        let sum ← fitI 63 (sum + piSqrtx)
        ompForM (fun s r => fitI 63 (s + r)) 0 sum cache (sched x c piSqrtx) (fun i cache sum => do
          let p ← primes.rd (i + 1)
          let x2 ← cdiv x p
          let (r, cache) ← phiRec E (i + 1) (-1) x2 i cache
          let sum ← fitI 63 (sum + r)
          pure (cache, sum))

/-- src/pi_legendre.cpp:21-30. -/
def piLegendre (tiny : Vec PhiTiny.Tab) (sched : Scheduler) (x : ℕ) : M ℤ :=
  if h : x < 2 then pure 0
  else do
    let a ← piLegendre tiny sched (Nat.sqrt x)
    let r ← phi tiny sched x a
    let s ← fitI 63 (r + a)
    fitI 63 (s - 1)
termination_by x
decreasing_by exact Nat.sqrt_lt_self (by omega)

end Phi
end PS
