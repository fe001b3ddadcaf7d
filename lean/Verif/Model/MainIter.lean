import Verif.Model.Main
import Verif.Model.PiIter

/-!
# The LMO algorithms and the program with the primesieve library inside

See Model/PiIter.lean.  The model of the program is that of Model/Main.lean with the handler for `std::bad_alloc`.
-/

namespace PS

/-- src/phi_sum.cpp:84-93: `phi_sum(int64_t x, int64_t a)`. -/
def phiSum64It (env : Psv.Env) (H : Heaps) (x a : ℕ) : M Int :=
  if x < 1 then .ok 0
  else if a < 10 then phiSum128 smallPrimes a 1 x 0
  else do
    let primes ← generateNPrimesIt env H a
    phiSum128 primes a 1 x 0

/-- src/phi_sum.cpp:95-104: `phi_sum(int128_t x, int64_t a)`. -/
def phiSumMIt (env : Psv.Env) (H : Heaps) (x a : ℕ) : M I256 :=
  if x ≤ 2 ^ 63 - 1 then do return I256.ofInt (← phiSum64It env H x a)
  else if a < 10 then phiSum256 smallPrimes a 1 x (I256.ofInt 0)
  else do
    let primes ← generateNPrimesIt env H a
    phiSum256 primes a 1 x (I256.ofInt 0)

namespace Lmo
open Res

/-- src/lmo/pi_lmo1.cpp:57-60: the special leaves. -/
def s2Lmo1It (env : Psv.Env) (H : Heaps) (x y c piY : ℕ) (primes lpf : Vec ℕ) (mu : Vec ℤ) : M I256 :=
  forUp (c + 1) piY (I256.ofInt 0) (fun b s2 => do
    let pb ← primes.rd b
    let q ← cdiv y pb
    forUp (q + 1) (y + 1) s2 (fun m s2 => do
      let l ← lpf.rd m
      let pb ← primes.rd b
      if l > pb then do
        let xn ← cdiv x (pb * m)
        let ph ← phiSumMIt env ((H.sub b).sub m) xn (b - 1)
        let mum ← mu.rd m
        pure (I256.sub s2 (I256.mul ph (I256.ofInt (mum * m * pb))))
      else pure s2))

/-- src/lmo/pi_lmo1.cpp:36-67: `pi_lmo1(x)`.  The ordinary leaves (lines 52-54) call `phi_sum(x, c)` with `c < 10`, which
needs no primes. -/
def piLmo1It (env : Psv.Env) (H : Heaps) (e : Pi.Env) (tiny : Vec PhiTiny.Tab) (x : ℤ) : M I256 := do
  if x < 2 then pure (I256.ofInt 0)
  else do
    let x := x.toNat
    let y ← irootM 3 e.est3 x
    let piY ← Phi.piLegendreIt env (H.sub 0) tiny e.schedP2 y
    let c ← PhiTiny.getC y
    let primes ← generatePrimesIt env (H.sub 1) 31 y
    let lpf ← generateLpf y
    let mu ← generateMoebius y
    let s1 ← s1Lmo1 x y c primes lpf mu
    let s2 ← s2Lmo1It env (H.sub 2) x y c piY.toNat primes lpf mu
    let phi := I256.add s1 s2
    let p2 ← P2.p2It env (H.sub 3) tiny e.schedP2 e.timeP2 1 x y
    let t ← P2.primeSumTinyIt env (H [4]) y
    pure (I256.sub (I256.sub (I256.add phi (I256.ofInt t)) (I256.ofInt 1)) p2)

/-- src/lmo/pi_lmo2.cpp:95-116, pi_lmo3.cpp:133-154, pi_lmo4.cpp:143-164, pi_lmo5.cpp:163-190,
pi_lmo_parallel1.cpp:251-278 without the final conversion. -/
def piLmoIt (env : Psv.Env) (H : Heaps) (e : Pi.Env) (tiny : Vec PhiTiny.Tab) (threads : ℤ)
    (s2 : ℕ → ℕ → ℕ → Vec ℕ → Vec ℕ → Vec ℤ → M I256) (x : ℤ) : M I256 := do
  if x < 2 then pure (I256.ofInt 0)
  else do
    let x := x.toNat
    let alpha ← Pi.getAlphaLmo e x
    let x13 ← irootM 3 e.est3 x
    let y ← Pi.yOf x13 alpha
    let c ← PhiTiny.getC y
    let p2 ← P2.p2It env (H.sub 0) tiny e.schedP2 e.timeP2 threads x y
    let mu ← generateMoebius y
    let lpf ← generateLpf y
    let primes ← generatePrimesIt env (H.sub 1) 31 y
    let s1 ← s1It env (H.sub 2) e.schedS1 x y c
    let s2 ← s2 x y c primes lpf mu
    let phi := I256.add s1 s2
    let t ← P2.primeSumTinyIt env (H [3]) y
    pure (I256.sub (I256.sub (I256.add phi (I256.ofInt t)) (I256.ofInt 1)) p2)

/-- src/lmo/pi_lmo2.cpp:95-116: `pi_lmo2(x)`. -/
def piLmo2It (env : Psv.Env) (H : Heaps) (e : Pi.Env) (tiny : Vec PhiTiny.Tab) (x : ℤ) : M ℤ :=
  toI64 (piLmoIt env H e tiny 1 (fun x y c primes lpf mu => do
    let r ← s2Lmo2 W64 63 x y c primes lpf mu
    pure (toI256 r)) x)

/-- src/lmo/pi_lmo3.cpp:133-154: `pi_lmo3(x)`. -/
def piLmo3It (env : Psv.Env) (H : Heaps) (e : Pi.Env) (tiny : Vec PhiTiny.Tab) (x : ℤ) : M ℤ :=
  toI64 (piLmoIt env H e tiny 1 (fun x y c primes lpf mu => do
    let r ← s2LmoC W64 false 63 x y c primes lpf mu
    pure (toI256 r)) x)

/-- src/lmo/pi_lmo4.cpp:143-164: `pi_lmo4(x)`. -/
def piLmo4It (env : Psv.Env) (H : Heaps) (e : Pi.Env) (tiny : Vec PhiTiny.Tab) (x : ℤ) : M ℤ :=
  toI64 (piLmoIt env H e tiny 1 (fun x y c primes lpf mu => do
    let r ← s2LmoC W128 true 127 x y c primes lpf mu
    pure (toI256 r)) x)

/-- src/lmo/pi_lmo5.cpp:163-190: `pi_lmo5(x)`. -/
def piLmo5It (env : Psv.Env) (H : Heaps) (e : Pi.Env) (tiny : Vec PhiTiny.Tab) (x : ℤ) : M ℤ :=
  toI64 (piLmoIt env H e tiny 1 (fun x y c primes lpf mu => do
    let r ← s2Lmo5 W64 63 x y c primes lpf mu
    pure (toI256 r)) x)

/-- src/lmo/pi_lmo_parallel1.cpp:251-278: `pi_lmo_parallel1(x, threads)`. -/
def piLmoParallel1It (env : Psv.Env) (H : Heaps) (e : Pi.Env) (tiny : Vec PhiTiny.Tab) (x : ℤ) (threads : ℤ) : M I256 :=
  piLmoIt env H e tiny threads (fun x y c primes lpf mu => s2Par e.hard x y c primes lpf mu threads) x

end Lmo

namespace Main

/-- src/app/main.cpp:160-192: the `switch`. -/
def runIt (env : Psv.Env) (H : Heaps) (e : Pi.Env) (tiny : Vec PhiTiny.Tab) (o : Opt) (x threads : ℤ) : M I256 :=
  match o with
  | .delegliseRivat => Pi.piIt env H e tiny x threads
  | .delegliseRivatParallel1 => Pi.piIt env H e tiny x threads
  | .lmo => do let x ← int64Cast x; Lmo.piLmoParallel1It env H e tiny x threads
  | .lmo1 => do let x ← int64Cast x; Lmo.piLmo1It env H e tiny x
  | .lmo2 => do let x ← int64Cast x; ofI64 (Lmo.piLmo2It env H e tiny x)
  | .lmo3 => do let x ← int64Cast x; ofI64 (Lmo.piLmo3It env H e tiny x)
  | .lmo4 => do let x ← int64Cast x; ofI64 (Lmo.piLmo4It env H e tiny x)
  | .lmo5 => do let x ← int64Cast x; ofI64 (Lmo.piLmo5It env H e tiny x)
  | .lmoParallel1 => do let x ← int64Cast x; Lmo.piLmoParallel1It env H e tiny x threads
  | .P2 => part "P2" e x (fun x y _ _ => P2.p2It env H tiny e.schedP2 e.timeP2 threads x y)
  | .pi => Pi.piIt env H e tiny x threads
  | .S1 => part "S1" e x (fun x y _ c => s1It env H e.schedS1 x y c)
  | .S2Easy => part "S2_easy" e x (fun x y z c => Pi.s2EasyIt env H e x y z c)
  | .S2Hard => part "S2_hard" e x (fun x y z c => S2Hard.s2HardIt env H e.hard x y z c threads)
  | .S2Trivial => part "S2_trivial" e x (fun x y z c => S2Trivial.s2TrivialIt env H e.schedTrivial x y z c threads)
  | _ => pure (I256.ofInt 0)

/-- src/app/main.cpp:149-216: `main`, with the handler for `bad_alloc` in lines 194-199.  The exception does not get here
from a parallel region (Model/Omp.lean). -/
def mainIt (env : Psv.Env) (H : Heaps) (e : Env) (args : List (List Char)) : M Output := do
  let tiny ← PhiTiny.build
  match ← parseOptions e args with
  | .error ex => pure (.exit ex)
  | .ok (pco, set) =>
    match runIt env H (algEnv e set pco.option) tiny pco.option pco.x (getNumThreads e.ompMax set.threads) with
    | .ok res => do
      let digits ← I256.print res
      match label pco.option with
      | some name => if set.print ∧ pco.x ≥ 1 then pure (.named name digits) else pure (.result digits)
      | none => pure (.result digits)
    | .error (.thrown msg) =>
      if msg = "std::bad_alloc" then
        pure (.error "failed to allocate memory, your system most likely does\n       not have enough memory to run this computation.")
      else pure (.error msg)
    | .error err => .error err

end Main
end PS
