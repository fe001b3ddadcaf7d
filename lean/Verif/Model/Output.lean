import Verif.Model.Main
import Verif.Model.Int128

/-!
# Model of the text on the standard output stream: src/print.cpp, src/S2Status.cpp and the `print` calls of the algorithms

`W α` is a computation that also writes characters.  The functions `…Out` repeat the top level functions of the
algorithms with their output.  Elapsed times and the clock are oracles (`OutEnv`).  A value of type `double` is printed
with the number of digits after the point that `setprecision` gives, its exact value rounded to nearest, ties to even (as
the GNU C library does).  The string that `S2Status::print` builds is written by one operation `<<`.
-/

namespace PS.Print

abbrev Text := List Char

/-- A computation that writes text. -/
abbrev W (α : Type) := StateT Text M α

/-- `cout << t`. -/
def emit (t : Text) : W Unit := modify (· ++ t)

/-- A value of type `int`, `int64_t`. -/
def num (n : ℤ) : Text := (toString n).toList

/-- The last `p` digits of `n`, with leading zeros. -/
def lastDigits : ℕ → ℕ → Text
  | 0, _ => []
  | p + 1, n => lastDigits p (n / 10) ++ [Nat.digitChar (n % 10)]

/-- `fixed << setprecision(p) << d`. -/
def fixed (p : ℕ) : Dbl → Text
  | .fin q =>
    let n := (roundEven (|q| * 10 ^ p)).toNat
    (if q < 0 then ['-'] else []) ++ (toString (n / 10 ^ p)).toList ++ (if p = 0 then [] else '.' :: lastDigits p n)
  | .inf neg => if neg then "-inf".toList else "inf".toList
  | .nan => "nan".toList

/-- The variables `print_` and `print_variables_`, src/print.cpp:24-26, and `status_precision_`,
src/primesum.cpp:38. -/
structure Flags where
  print : Bool
  vars : Bool
  set : Main.Settings

/-- What the output takes from the environment. -/
structure OutEnv where
  /-- the results of `get_time() - time` that are printed, by the name of the function -/
  seconds : String → Dbl
  /-- the results of `get_time()` in `S2Status::print` -/
  clock : ℕ → Dbl
  /-- the order in which the threads of `S2_easy` take their steps in `S2Status::print` -/
  steps : List ℕ

def nl : Text := ['\n']

/-- src/print.cpp:55-59: `print(str)`. -/
def say (f : Flags) (s : String) : W Unit := if f.print then emit (s.toList ++ nl) else pure ()

/-- src/print.cpp:116-119: `print_seconds`. -/
def secondsText (d : Dbl) : Text := "Seconds: ".toList ++ fixed 3 d ++ nl

/-- src/print.cpp:61-72: `print(x, y, z, c, alpha, threads)`. -/
def sayAll (f : Flags) (x y z c : ℕ) (alpha : Dbl) (threads : ℤ) : W Unit :=
  if f.print then do
    let xs ← I128.printS x
    emit ("x = ".toList ++ xs ++ nl ++ "y = ".toList ++ num y ++ nl ++ "z = ".toList ++ num z ++ nl ++
      "c = ".toList ++ num c ++ nl ++ "alpha = ".toList ++ fixed 3 alpha ++ nl ++
      "threads = ".toList ++ num threads ++ nl)
  else pure ()

/-- src/primesum.cpp:172-177: `get_alpha(x, y)`. -/
def alphaOfY (x y : ℕ) : M Dbl := (Dbl.ofInt y).div (.ofInt (iroot 3 x))

/-- src/print.cpp:74-86 (`c = none`) and :88-101: `print(x, y, threads)` and `print(x, y, c, threads)`. -/
def sayVariables (f : Flags) (x y : ℕ) (c : Option ℕ) (threads : ℤ) : W Unit :=
  if f.vars then do
    let z ← cdiv x y
    let xs ← I128.printS x
    let zs ← I128.printS z
    let alpha ← alphaOfY x y
    emit ("x = ".toList ++ xs ++ nl ++ "y = ".toList ++ num y ++ nl ++ "z = ".toList ++ zs ++ nl ++
      (match c with
       | some c => "c = ".toList ++ num c ++ nl
       | none => []) ++
      "alpha = ".toList ++ fixed 3 alpha ++ nl ++ "threads = ".toList ++ num threads ++ nl ++ nl)
  else pure ()

/-- src/print.cpp:103-112: `print(res_str, res, time)`. -/
def sayResult (f : Flags) (name : String) (res : I256) (seconds : Dbl) : W Unit :=
  if f.print then do
    let d ← I256.print res
    emit ("\r".toList ++ List.replicate 50 ' ' ++ "\r".toList ++ "Status: 100%".toList ++ nl ++
      name.toList ++ " = ".toList ++ d ++ nl ++ secondsText seconds)
  else pure ()

/-- The three lines at the start of a part of the formula, e.g. src/P2.cpp:188-190. -/
def sayTitle (f : Flags) (a b : String) : W Unit := do
  say f ""
  say f a
  say f b

/-! ### Progress -/

/-- include/primesum-internal.hpp:106-111: `get_percent(low, limit)`. -/
def getPercent (low limit : ℕ) : M Dbl := do
  let p ← ((Dbl.fin 100).mul (.ofInt low)).div (.ofInt ((max 1 limit : ℕ) : ℤ))
  pure (.inBetween (.fin 0) p (.fin 100))

/-- src/S2Status.cpp:36-46: `S2Status::skewed_percent`. -/
def skewedPercent (l : Pi.Lib) (x y : ℕ) : M Dbl := do
  let exp := Dbl.round (96 / 100)
  let percent ← getPercent x y
  let q ← (Dbl.fin 101).div ((Dbl.fin 1).sub exp)
  let r ← percent.div q
  let base := exp.add r
  let low := l.pow base (.fin 100)
  let dividend := (l.pow base percent).sub low
  let s ← ((Dbl.fin 100).mul dividend).div ((Dbl.fin 1).sub low)
  pure ((Dbl.fin 100).sub s)

/-- Where a thread is in `S2Status::print(n, limit)`. -/
inductive Pc where
  /-- between two calls -/
  | idle
  /-- src/S2Status.cpp:53-56: the lock is held -/
  | locked (n : ℕ) (time : Dbl)
  /-- :78 -/
  | setTime (n : ℕ) (time : Dbl)
  /-- :80-83 -/
  | compare (n : ℕ)
  /-- :85 -/
  | setPercent (percent : Dbl)
  /-- :86-93 -/
  | write (percent : Dbl)

/-- A thread: what it does and the arguments `n` of its remaining calls. -/
structure Thread where
  pc : Pc := .idle
  todo : List ℕ

/-- The object of class `S2Status` (include/S2Status.hpp:29-38); `text` is what has been written. -/
structure Status where
  percent : Dbl := .fin (-1)
  time : Dbl := .fin 0
  locked : Bool := false
  text : Text := []

/-- src/S2Status.cpp:86-93: the characters written for a percentage. -/
def statusText (precision : ℕ) (percent : Dbl) : Text :=
  let status := "Status: ".toList ++ fixed precision percent ++ "%".toList
  "\r".toList ++ List.replicate status.length ' ' ++ "\r".toList ++ status

/-- One step of a thread in `S2Status::print` (src/S2Status.cpp:50-61, :72-96).  The lock protects the read of `time_`
only.  `now` is the result of `get_time()`, `precision` is `precision_` and `epsilon_` is `1.0 / 10^precision`. -/
def threadStep (l : Pi.Lib) (precision limit : ℕ) (now : Dbl) (s : Status) (t : Thread) : M (Status × Thread) :=
  match t.pc with
  | .idle =>
    match t.todo with
    | [] => pure (s, t)
    | n :: todo =>
      if s.locked then pure (s, ⟨.idle, todo⟩)
      else pure ({ s with locked := true }, ⟨.locked n now, todo⟩)
  | .locked n time => do
    let isPrint ← (if s.time.isZero then pure true
      else do
        let d ← (Dbl.fin 1).div (.fin 20)
        pure (d.le (time.sub s.time)) : M Bool)
    pure ({ s with locked := false }, { t with pc := if isPrint then .setTime n time else .idle })
  | .setTime n time => pure ({ s with time := time }, { t with pc := .compare n })
  | .compare n => do
    let percent ← skewedPercent l n limit
    let epsilon ← (Dbl.fin 1).div (.ofInt ((10 ^ precision : ℕ) : ℤ))
    pure (s, { t with pc := if epsilon.le (percent.sub s.percent) then .setPercent percent else .idle })
  | .setPercent percent => pure ({ s with percent := percent }, { t with pc := .write percent })
  | .write percent => pure ({ s with text := s.text ++ statusText precision percent }, { t with pc := .idle })

/-- The steps `steps` of the threads, one after another; a number that is not a thread is skipped. -/
def statusRun (l : Pi.Lib) (precision limit : ℕ) (clock : ℕ → Dbl) :
    List ℕ → ℕ → Status → List Thread → M (Status × List Thread)
  | [], _, s, ts => pure (s, ts)
  | i :: steps, k, s, ts =>
    match ts[i]? with
    | none => statusRun l precision limit clock steps (k + 1) s ts
    | some t => do
      let (s, t) ← threadStep l precision limit (clock k) s t
      statusRun l precision limit clock steps (k + 1) s (ts.set i t)

/-! ### The algorithms -/

/-- src/P2.cpp:169-175. -/
def percentText (f : Flags) (x low z : ℕ) : M Text :=
  if f.print then do
    let p ← getPercent low z
    pure ("\rStatus: ".toList ++ fixed (Main.getStatusPrecision f.set x).toNat p ++ "%".toList)
  else pure []

/-- src/P2.cpp:124-180: `P2_OpenMP_master` with its output. -/
def masterOut (R : Type) [Res R] (f : Flags) (tiny : Vec PhiTiny.Tab) (sched : Scheduler) (time : ℕ → Ordering)
    (threads : ℤ) (x y : ℕ) : M (R × Text) :=
  if x < 4 then pure (Res.ofInt 0, [])
  else do
    let a ← Phi.piLegendre tiny sched y
    let b ← Phi.piLegendre tiny sched (Nat.sqrt x)
    if a ≥ b then pure (Res.ofInt 0, [])
    else do
      let z ← cdiv x (max y 1)
      let z ← fit 63 z
      let s ← P2.primeSumTiny y
      loop (z + 1) ((⟨2, 2 ^ 23, threads, Res.ofInt 0, Res.ofInt s, 0⟩ : P2.MSt R), ([] : Text)) (fun s =>
        if s.1.low < z then do
          let s' ← P2.iteration sched time threads.toNat x y z s.1
          let t ← percentText f x s'.low z
          pure (.next (s', s.2 ++ t))
        else pure (.done (s.1.p2, s.2)))

/-- src/P2.cpp:186-204: `P2(x, y, threads)`. -/
def p2Out (f : Flags) (o : OutEnv) (tiny : Vec PhiTiny.Tab) (sched : Scheduler) (time : ℕ → Ordering) (threads : ℤ)
    (x y : ℕ) : W I256 := do
  sayTitle f "=== P2(x, y) ===" "Computation of the 2nd partial sieve function"
  sayVariables f x y none threads
  let r ← (if x ≤ 2 ^ 63 - 1 then do
      let r ← masterOut W128 f tiny sched time threads x y
      pure (Res.toI256 r.1, r.2)
    else do
      let r ← masterOut I256 f tiny sched time threads x y
      pure (Res.toI256 r.1, r.2) : M (I256 × Text))
  emit r.2
  sayResult f "P2" r.1 (o.seconds "P2")
  pure r.1

/-- src/S1.cpp:85-111: `S1(x, y, c, threads)`. -/
def s1Out (f : Flags) (o : OutEnv) (sched : Scheduler) (x y c : ℕ) (threads : ℤ) : W I256 := do
  sayTitle f "=== S1(x, y) ===" "Computation of the ordinary leaves"
  sayVariables f x y (some c) threads
  let r ← PS.s1 sched x y c
  sayResult f "S1_sum" r (o.seconds "S1")
  pure r

/-- src/deleglise-rivat/S2_trivial.cpp:72-100: `S2_trivial(x, y, z, c, threads)`. -/
def s2TrivialOut (f : Flags) (o : OutEnv) (sched : Scheduler) (x y z c : ℕ) (threads : ℤ) : W I256 := do
  sayTitle f "=== S2_trivial(x, y) ===" "Computation of the trivial special leaves"
  sayVariables f x y (some c) threads
  let r ← S2Trivial.s2Trivial sched x y z c threads
  sayResult f "S2_trivial" r (o.seconds "S2_trivial")
  pure r

/-- src/deleglise-rivat/S2_easy.cpp:49-58, :99-100, S2_easy_libdivide.cpp:66-75, :147-148: the arguments of the calls of
`status.print(b, pi_x13)`, for each thread in the order of its iterations, and `pi_x13`. -/
def easyCalls (sched : Scheduler) (x y c : ℕ) : M (List (List ℕ) × ℕ) := do
  let x13 := iroot 3 x
  let pi ← PiTable.build y
  let piSqrty ← pi.at (Nat.sqrt y)
  let piX13 ← pi.at x13
  pure (sched 4 (max c piSqrty + 1) (piX13 + 1), piX13)

/-- The progress output of `S2_easy`. -/
def easyText (f : Flags) (o : OutEnv) (l : Pi.Lib) (sched : Scheduler) (x y c : ℕ) : M Text :=
  if f.print then do
    let calls ← easyCalls sched x y c
    let r ← statusRun l (Main.getStatusPrecision f.set x).toNat calls.2 o.clock o.steps 0 {} (calls.1.map (fun t => { todo := t }))
    pure r.1.text
  else pure []

/-- src/deleglise-rivat/S2_easy.cpp:110-145, S2_easy_libdivide.cpp:158-193: `S2_easy(x, y, z, c, threads)`. -/
def s2EasyOut (f : Flags) (o : OutEnv) (e : Pi.Env) (x y z c : ℕ) (threads : ℤ) : W I256 := do
  sayTitle f "=== S2_easy(x, y) ===" "Computation of the easy special leaves"
  sayVariables f x y (some c) threads
  let r ← Pi.s2Easy e x y z c
  let t ← easyText f o e.lib e.schedEasy x y c
  emit t
  sayResult f "S2_easy" r (o.seconds "S2_easy")
  pure r

/-- src/deleglise-rivat/S2_hard.cpp:387-424: `S2_hard(x, y, z, c, threads)`. -/
def s2HardOut (f : Flags) (o : OutEnv) (e : S2Hard.Env) (x y z c : ℕ) (threads : ℤ) : W I256 := do
  sayTitle f "=== S2_hard(x, y) ===" "Computation of the hard special leaves"
  sayVariables f x y (some c) threads
  let r ← S2Hard.s2Hard e x y z c threads
  sayResult f "S2_hard" r (o.seconds "S2_hard")
  pure r

/-- src/deleglise-rivat/pi_deleglise_rivat_parallel1.cpp:55-82: `pi_deleglise_rivat_parallel1(x, threads)` with its
output; :33-45 is `S2`. -/
def piOut (f : Flags) (o : OutEnv) (e : Pi.Env) (tiny : Vec PhiTiny.Tab) (x : ℤ) (threads : ℤ) : W I256 := do
  if x < 2 then pure (I256.ofInt 0)
  else do
    let x := x.toNat
    let alpha ← Pi.getAlpha e x
    let limit ← Pi.getMaxX e.lib alpha
    if x > limit then throw (.thrown ("pi(x): x must be <= " ++ toString limit))
    else do
      let x13 ← irootM 3 e.est3 x
      let y ← Pi.yOf x13 alpha
      let z ← cdiv x y
      let c ← PhiTiny.getC y
      sayTitle f "=== pi_deleglise_rivat_parallel1(x) ===" "pi(x) = S1 + S2 + pi(y) - 1 - P2"
      sayAll f x y z c alpha threads
      let p2 ← p2Out f o tiny e.schedP2 e.timeP2 threads x y
      let s1 ← s1Out f o e.schedS1 x y c threads
      let s2Trivial ← s2TrivialOut f o e.schedTrivial x y z c threads
      let s2Easy ← s2EasyOut f o e x y z c threads
      let s2Hard ← s2HardOut f o e.hard x y z c threads
      let s2 := I256.add (I256.add s2Trivial s2Easy) s2Hard
      let phi := I256.add s1 s2
      let t ← P2.primeSumTiny y
      pure (I256.sub (I256.sub (I256.add phi (I256.ofInt t)) (I256.ofInt 1)) p2)

/-- src/lmo/pi_lmo2.cpp:95-116, pi_lmo3.cpp:133-154, pi_lmo4.cpp:143-164 (`title = none`), pi_lmo5.cpp:57-69, :149-190,
pi_lmo_parallel1.cpp:176-186, :239-278 with their output. -/
def piLmoOut (title : Option String) (f : Flags) (o : OutEnv) (e : Pi.Env) (tiny : Vec PhiTiny.Tab) (threads : ℤ)
    (s2 : ℕ → ℕ → ℕ → Vec ℕ → Vec ℕ → Vec ℤ → M I256) (x : ℤ) : W I256 := do
  if x < 2 then pure (I256.ofInt 0)
  else do
    let x := x.toNat
    let alpha ← Pi.getAlphaLmo e x
    let x13 ← irootM 3 e.est3 x
    let y ← Pi.yOf x13 alpha
    let c ← PhiTiny.getC y
    match title with
    | some s => do
      let z ← cdiv x y
      sayTitle f s "pi(x) = S1 + S2 + pi(y) - 1 - P2"
      sayAll f x y z c alpha threads
    | none => pure ()
    let p2 ← p2Out f o tiny e.schedP2 e.timeP2 threads x y
    let mu ← generateMoebius y
    let lpf ← generateLpf y
    let primes ← generatePrimesT 31 y
    let s1 ← s1Out f o e.schedS1 x y c threads
    if title.isSome then sayTitle f "=== S2(x, y) ===" "Computation of the special leaves"
    let s2 ← s2 x y c primes lpf mu
    if title.isSome then sayResult f "S2" s2 (o.seconds "S2")
    let phi := I256.add s1 s2
    let t ← P2.primeSumTiny y
    pure (I256.sub (I256.sub (I256.add phi (I256.ofInt t)) (I256.ofInt 1)) p2)

/-- src/lmo/pi_lmo1.cpp:36-67: `pi_lmo1(x)` with the output of `P2`. -/
def piLmo1Out (f : Flags) (o : OutEnv) (e : Pi.Env) (tiny : Vec PhiTiny.Tab) (x : ℤ) : W I256 := do
  if x < 2 then pure (I256.ofInt 0)
  else do
    let x := x.toNat
    let y ← irootM 3 e.est3 x
    let piY ← Phi.piLegendre tiny e.schedP2 y
    let c ← PhiTiny.getC y
    let primes ← generatePrimesT 31 y
    let lpf ← generateLpf y
    let mu ← generateMoebius y
    let s1 ← Lmo.s1Lmo1 x y c primes lpf mu
    let s2 ← Lmo.s2Lmo1 x y c piY.toNat primes lpf mu
    let phi := I256.add s1 s2
    let p2 ← p2Out f o tiny e.schedP2 e.timeP2 1 x y
    let t ← P2.primeSumTiny y
    pure (I256.sub (I256.sub (I256.add phi (I256.ofInt t)) (I256.ofInt 1)) p2)

/-- `int64_t(sum)` at the end of `pi_lmo2` to `pi_lmo5` and the conversion of the result to `int256_t`. -/
def viaI64 (r : I256) : M I256 := do
  let v ← I256.toSigned 64 r
  pure (I256.ofInt v.toInt)

/-- src/app/main.cpp:40-145 with the output; `set_print_variables(true)` if `is_print()`. -/
def partOut (name : String) (f : Flags) (e : Pi.Env) (x : ℤ) (g : Flags → ℕ → ℕ → ℕ → ℕ → W I256) : W (I256 × Flags) := do
  if x < 1 then pure (I256.ofInt 0, f)
  else do
    let x := x.toNat
    let alpha ← Pi.getAlpha e x
    let limit ← Pi.getMaxX e.lib alpha
    if x > limit then throw (.thrown (name ++ "(x): x must be <= " ++ toString limit))
    else do
      let f := if f.print then { f with vars := true } else f
      let x13 ← irootM 3 e.est3 x
      let y ← Pi.yOf x13 alpha
      let z ← cdiv x y
      let c ← PhiTiny.getC y
      let r ← g f x y z c
      pure (r, f)

/-- src/app/main.cpp:160-192: the `switch` with the output; the second result are the flags afterwards. -/
def runOut (f : Flags) (o : OutEnv) (e : Pi.Env) (tiny : Vec PhiTiny.Tab) (opt : Main.Opt) (x threads : ℤ) :
    W (I256 × Flags) :=
  let same (w : W I256) : W (I256 × Flags) := do
    let r ← w
    pure (r, f)
  let lmo64 (title : Option String) (s2 : ℕ → ℕ → ℕ → Vec ℕ → Vec ℕ → Vec ℤ → M I256) : W (I256 × Flags) := same do
    let x ← Main.int64Cast x
    let r ← piLmoOut title f o e tiny 1 s2 x
    viaI64 r
  let lmoPar : W (I256 × Flags) := same do
    let x ← Main.int64Cast x
    piLmoOut (some "=== pi_lmo_parallel1(x) ===") f o e tiny threads
      (fun x y c primes lpf mu => Lmo.s2Par e.hard x y c primes lpf mu threads) x
  match opt with
  | .delegliseRivat | .delegliseRivatParallel1 | .pi => same (piOut f o e tiny x threads)
  | .lmo | .lmoParallel1 => lmoPar
  | .lmo1 => same do
    let x ← Main.int64Cast x
    piLmo1Out f o e tiny x
  | .lmo2 => lmo64 none (fun x y c primes lpf mu => do
    let r ← Lmo.s2Lmo2 W64 63 x y c primes lpf mu
    pure (Res.toI256 r))
  | .lmo3 => lmo64 none (fun x y c primes lpf mu => do
    let r ← Lmo.s2LmoC W64 false 63 x y c primes lpf mu
    pure (Res.toI256 r))
  | .lmo4 => lmo64 none (fun x y c primes lpf mu => do
    let r ← Lmo.s2LmoC W128 true 127 x y c primes lpf mu
    pure (Res.toI256 r))
  | .lmo5 => lmo64 (some "=== pi_lmo5(x) ===") (fun x y c primes lpf mu => do
    let r ← Lmo.s2Lmo5 W64 63 x y c primes lpf mu
    pure (Res.toI256 r))
  | .P2 => partOut "P2" f e x (fun f x y _ _ => p2Out f o tiny e.schedP2 e.timeP2 threads x y)
  | .S1 => partOut "S1" f e x (fun f x y _ c => s1Out f o e.schedS1 x y c threads)
  | .S2Trivial => partOut "S2_trivial" f e x (fun f x y z c => s2TrivialOut f o e.schedTrivial x y z c threads)
  | .S2Easy => partOut "S2_easy" f e x (fun f x y z c => s2EasyOut f o e x y z c threads)
  | .S2Hard => partOut "S2_hard" f e x (fun f x y z c => s2HardOut f o e.hard x y z c threads)
  | _ => pure (I256.ofInt 0, f)

/-- The result of a run of the program: what is on the two streams and the exit code. -/
structure Streams where
  out : Text
  err : Text
  code : ℕ
deriving DecidableEq

/-- src/app/main.cpp:149-216: `main`; `Except.error` is an end before the computation (help, version, self-tests).  An
exception ends a computation; the model throws none after the first character has been written. -/
def mainOut (e : Main.Env) (o : OutEnv) (args : List (List Char)) : M (Except Main.Exit Streams) := do
  let tiny ← PhiTiny.build
  match ← Main.parseOptions e args with
  | .error ex => pure (.error ex)
  | .ok (pco, set) =>
    let f : Flags := ⟨set.print, false, set⟩
    match (runOut f o (Main.algEnv e set pco.option) tiny pco.option pco.x (getNumThreads e.ompMax set.threads)).run [] with
    | .ok ((res, f), text) => do
      if f.vars then pure (.ok ⟨text, [], 0⟩)
      else do
        let d ← I256.print res
        pure (.ok ⟨text ++ (if f.print then nl else []) ++ d ++ nl ++
          (if pco.time then secondsText (o.seconds "main") else []), [], 0⟩)
    | .error (.thrown msg) => pure (.ok ⟨[], "Error: ".toList ++ msg.toList ++ nl, 1⟩)
    | .error err => .error err

end PS.Print
