import Verif.Model.S1
import Verif.Model.P2
import Verif.Model.S2Trivial
import Verif.Model.S2Easy
import Verif.Model.S2Hard
import Verif.Model.Imath
import Verif.Model.Dbl
import Mathlib.Algebra.Order.Floor.Ring
import Mathlib.Data.Rat.Floor

/-!
# Model of `pi(x, threads)`: src/deleglise-rivat/pi_deleglise_rivat_parallel1.cpp and src/primesum.cpp

The computations with `double` values are those of `Model/Dbl.lean`.  `Env` supplies the tuning factor set by
`set_alpha`, the functions `log` and `pow` of the C library and the estimates from which `iroot` starts.  The status
output (`print`) is left out.
-/

namespace PS.Pi
open Res

/-- The functions of the C library. -/
structure Lib where
  log : Dbl → Dbl
  pow : Dbl → Dbl → Dbl

/-- What the environment supplies to one run of `pi`. -/
structure Env where
  /-- distribution of loop iterations over threads in `P2`, `S1`, `S2_trivial`, `S2_easy` -/
  schedP2 : Scheduler
  schedS1 : Scheduler
  schedTrivial : Scheduler
  schedEasy : Scheduler
  hard : S2Hard.Env
  /-- timings of the load balancer of `P2` -/
  timeP2 : ℕ → Ordering
  /-- whether S2_easy_libdivide.cpp or S2_easy.cpp is compiled -/
  libdivide : Bool
  /-- results of `pow(x, 1.0 / 3)` and `pow(x, 1.0 / 6)` -/
  est3 : ℕ
  est6 : ℕ
  /-- the variable `alpha_`, src/primesum.cpp:41 -/
  alpha : Dbl
  lib : Lib

/-- src/primesum.cpp:191-196: the default tuning factor of `get_alpha_lmo`. -/
def defaultLmo (l : Lib) (x : ℕ) : Dbl :=
  let a := Dbl.round (156512 / 10 ^ 8)
  let b := Dbl.round (-261411 / 10 ^ 7)
  let c := Dbl.round (990948 / 10 ^ 6)
  let logx := l.log (.ofInt x)
  ((a.mul (l.pow logx (.fin 2))).add (b.mul logx)).add c

/-- src/primesum.cpp:215-221: the default tuning factor of `get_alpha_deleglise_rivat`. -/
def defaultDR (l : Lib) (x : ℕ) : Dbl :=
  let a := Dbl.round (356618 / 10 ^ 9)
  let b := Dbl.round (263762 / 10 ^ 8)
  let c := Dbl.round (-125227 / 10 ^ 6)
  let d := Dbl.round (139952 / 10 ^ 5)
  let logx := l.log (.ofInt x)
  (((a.mul (l.pow logx (.fin 3))).add (b.mul (l.pow logx (.fin 2)))).add (c.mul logx)).add d

/-- src/primesum.cpp:189-199 and :213-224: the tuning factor that is set or the default one, between 1 and the sixth
root `x16` of `x`. -/
def clampAlpha (set dflt : Dbl) (x16 : ℕ) : Dbl :=
  Dbl.inBetween (.fin 1) (if set.lt (.fin 1) then dflt else set) (.ofInt x16)

/-- src/primesum.cpp:184-200: `get_alpha_lmo(x)`. -/
def getAlphaLmo (e : Env) (x : ℕ) : M Dbl := do
  let x16 ← irootM 6 e.est6 x
  pure (clampAlpha e.alpha (defaultLmo e.lib x) x16)

/-- src/primesum.cpp:207-225: `get_alpha_deleglise_rivat(x)`. -/
def getAlpha (e : Env) (x : ℕ) : M Dbl := do
  let x16 ← irootM 6 e.est6 x
  pure (clampAlpha e.alpha (defaultDR e.lib x) x16)

/-- src/primesum.cpp:129-143: the number that `get_max_x(alpha)` returns in decimal notation. -/
def getMaxX (l : Lib) (alpha : Dbl) : M ℤ :=
  (l.pow ((l.pow (.fin 2) (.fin 61)).mul alpha) (.fin (3 / 2))).toInt128

/-- src/deleglise-rivat/pi_deleglise_rivat_parallel1.cpp:66, src/lmo/pi_lmo2.cpp:102 and others:
`(int64_t) (iroot<3>(x) * alpha)`. -/
def yOf (x13 : ℕ) (alpha : Dbl) : M ℕ := do
  let y ← ((Dbl.ofInt x13).mul alpha).toInt64
  pure y.toNat

/-- `S2_easy`: src/deleglise-rivat/S2_easy_libdivide.cpp or S2_easy.cpp. -/
def s2Easy (e : Env) (x y z c : ℕ) : M I256 :=
  if e.libdivide then S2Easy.s2EasyLib e.schedEasy x y z c else S2Easy.s2Easy e.schedEasy x y z c

/-- src/deleglise-rivat/pi_deleglise_rivat_parallel1.cpp:33-45: `S2`. -/
def s2 (e : Env) (x y z c : ℕ) (threads : ℤ) : M I256 := do
  let s2Trivial ← S2Trivial.s2Trivial e.schedTrivial x y z c threads
  let s2Easy ← s2Easy e x y z c
  let s2Hard ← S2Hard.s2Hard e.hard x y z c threads
  pure (I256.add (I256.add s2Trivial s2Easy) s2Hard)

/-- src/deleglise-rivat/pi_deleglise_rivat_parallel1.cpp:55-82: `pi_deleglise_rivat_parallel1(x, threads)`;
`pi(x, threads)` (src/primesum.cpp:47-50) and `pi_deleglise_rivat` (src/primesum.cpp:82-85) call it.  `tiny` is
the table `phiTiny` (src/PhiTiny.cpp), built before `main` starts. -/
def pi (e : Env) (tiny : Vec PhiTiny.Tab) (x : ℤ) (threads : ℤ) : M I256 := do
  if x < 2 then pure (I256.ofInt 0)
  else do
    let x := x.toNat
    let alpha ← getAlpha e x
    let limit ← getMaxX e.lib alpha
    if x > limit then .error (.thrown ("pi(x): x must be <= " ++ toString limit))
    else do
      let x13 ← irootM 3 e.est3 x
      let y ← yOf x13 alpha
      let z ← cdiv x y
      let c ← PhiTiny.getC y
      let p2 ← P2.p2 tiny e.schedP2 e.timeP2 threads x y
      let s1 ← PS.s1 e.schedS1 x y c
      let s2 ← s2 e x y z c threads
      let phi := I256.add s1 s2
      let t ← P2.primeSumTiny y
      pure (I256.sub (I256.sub (I256.add phi (I256.ofInt t)) (I256.ofInt 1)) p2)

end PS.Pi
