import Verif.Model.Pi
import Verif.Model.Lmo
import Verif.Model.Calculator
import Verif.Model.Misc

/-!
# Model of the console application: src/app/cmdoptions.cpp, src/app/main.cpp, src/print.cpp

A command line is the list of its arguments after the name of the program, each a list of characters.  `Env` supplies
what the program takes from elsewhere: the number of threads of OpenMP, the conversion of `--alpha=…` to `double` and
the environment of the algorithms.  Model/Output.lean has the additional output of `--status` and `--time` (progress, variables,
seconds), Model/Help.lean the help screen, the version and the output of `--test`.
-/

namespace PS.Main

/-- src/app/cmdoptions.hpp:19-44: `OptionValues`. -/
inductive Opt where
  | alpha | delegliseRivat | delegliseRivatParallel1 | help | lmo | lmo1 | lmo2 | lmo3 | lmo4 | lmo5
  | lmoParallel1 | number | P2 | pi | S1 | S2Easy | S2Hard | S2Trivial | status | test | time | threads | version
deriving DecidableEq, Repr

/-- src/app/cmdoptions.cpp:58-90: `optionMap`. -/
def optionMap : List (List Char × Opt) :=
  [("-a".toList, .alpha), ("--alpha".toList, .alpha), ("-d".toList, .delegliseRivat),
   ("--deleglise_rivat".toList, .delegliseRivat), ("--deleglise_rivat_parallel1".toList, .delegliseRivatParallel1),
   ("-h".toList, .help), ("--help".toList, .help), ("-l".toList, .lmo), ("--lmo".toList, .lmo),
   ("--lmo1".toList, .lmo1), ("--lmo2".toList, .lmo2), ("--lmo3".toList, .lmo3), ("--lmo4".toList, .lmo4),
   ("--lmo5".toList, .lmo5), ("--lmo_parallel1".toList, .lmoParallel1), ("--number".toList, .number),
   ("--P2".toList, .P2), ("--pi".toList, .pi), ("--S1".toList, .S1), ("--S2_easy".toList, .S2Easy),
   ("--S2_hard".toList, .S2Hard), ("--S2_trivial".toList, .S2Trivial), ("-s".toList, .status),
   ("--status".toList, .status), ("--test".toList, .test), ("--time".toList, .time), ("-t".toList, .threads),
   ("--threads".toList, .threads), ("-v".toList, .version), ("--version".toList, .version)]

/-- `str.find_first_of("=0123456789")`. -/
def findDelimiter (str : List Char) : Option ℕ := str.findIdx? (fun c => c ∈ "=0123456789".toList)

/-- src/app/cmdoptions.cpp:93-113: `makeOption`, together with the lookup `optionMap[option.id]` (:126). -/
def makeOption (str : List Char) : Opt × List Char :=
  let delimiter := if (optionMap.lookup str).isNone then findDelimiter str else none
  let (id, value) :=
    match delimiter with
    | none => (str, [])
    | some d => (str.take d, str.drop (d + if str[d]? = some '=' then 1 else 0))
  let id := if id = [] ∧ value ≠ [] then "--number".toList else id
  match optionMap.lookup id with
  | some o => (o, value)
  | none => (.help, value)

/-- The global variables of src/primesum.cpp:36-43 and `print_` of src/print.cpp:24. -/
structure Settings where
  threads : ThreadSt := ⟨0⟩
  statusPrecision : ℤ := -1
  alpha : Dbl := .fin (-1)
  print : Bool := false
deriving Inhabited

/-- src/app/cmdoptions.hpp:46-51: `PrimeSumOptions`. -/
structure Options where
  x : ℤ := -1
  option : Opt := .pi
  time : Bool := false

/-- The local variables of `parseOptions` and the global variables. -/
structure St where
  pco : Options := {}
  numbers : List ℤ := []
  set : Settings := {}

/-- The ways in which the program ends before a computation. -/
inductive Exit where
  | help | version | test
deriving DecidableEq, Repr

structure Env where
  /-- `omp_get_max_threads()` -/
  ompMax : ℤ
  /-- src/app/cmdoptions.cpp:33-40: `to_double`, `none` if it throws -/
  toDouble : List Char → Option Dbl
  /-- what the algorithm run for an option takes from its environment, except the tuning factor `alpha` -/
  alg : Opt → Pi.Env

/-- `to_int128(value)` (src/primesum.cpp:268-272); `none` if an exception is thrown.  Undefined behaviour of the
calculator remains an error. -/
def toInt128? (value : List Char) : M (Option ℤ) :=
  match Calc.toInt128 (String.ofList value) with
  | .ok x => .ok (some x)
  | .error (.thrown _) => .ok none
  | .error e => .error e

/-- `(int) x`. -/
def toInt (x : ℤ) : ℤ := x.bmod (2 ^ 32)

/-- src/primesum.cpp:249-252: `set_status_precision`. -/
def setStatusPrecision (s : Settings) (n : ℤ) : Settings := { s with statusPrecision := inBetween 0 n 5 }

/-- src/primesum.cpp:254-266: `get_status_precision`; `x` is converted to `double` for the comparison with `1e23` and
`1e21`. -/
def getStatusPrecision (s : Settings) (x : ℤ) : ℤ :=
  if s.statusPrecision < 0 ∧ (Dbl.round (10 ^ 23)).le (.ofInt x) then 2
  else if s.statusPrecision < 0 ∧ (Dbl.round (10 ^ 21)).le (.ofInt x) then 1
  else if s.statusPrecision > 0 then s.statusPrecision else 0

/-- src/app/cmdoptions.cpp:127-142: the `switch`; an exception leads to `help()`. -/
def apply (e : Env) (st : St) (o : Opt) (value : List Char) : M (Except Exit St) :=
  match o with
  | .alpha =>
    match e.toDouble value with
    | some a => .ok (.ok { st with set := { st.set with alpha := a } })
    | none => .ok (.error .help)
  | .number => do
    match ← toInt128? value with
    | some x => .ok (.ok { st with numbers := st.numbers ++ [x] })
    | none => .ok (.error .help)
  | .threads => do
    match ← toInt128? value with
    | some x => .ok (.ok { st with set := { st.set with threads := setNumThreads e.ompMax st.set.threads (toInt x) } })
    | none => .ok (.error .help)
  | .help => .ok (.error .help)
  | .status => do
    let st := { st with set := { st.set with print := true } }
    if value ≠ [] then
      match ← toInt128? value with
      | some x => .ok (.ok { st with set := setStatusPrecision st.set (toInt x), pco := { st.pco with time := true } })
      | none => .ok (.error .help)
    else .ok (.ok { st with pco := { st.pco with time := true } })
  | .time => .ok (.ok { st with pco := { st.pco with time := true } })
  | .test => .ok (.error .test)
  | .version => .ok (.error .version)
  | o => .ok (.ok { st with pco := { st.pco with option := o } })

/-- src/app/cmdoptions.cpp:125-143: the body of the loop. -/
def step (e : Env) (st : St) (arg : List Char) : M (Except Exit St) :=
  apply e st (makeOption arg).1 (makeOption arg).2

/-- src/app/cmdoptions.cpp:124-144: the loop over the arguments. -/
def parseLoop (e : Env) : List (List Char) → St → M (Except Exit St)
  | [], st => .ok (.ok st)
  | arg :: args, st => do
    match ← step e st arg with
    | .ok st => parseLoop e args st
    | .error ex => .ok (.error ex)

/-- src/app/cmdoptions.cpp:115-156: `parseOptions`. -/
def parseOptions (e : Env) (args : List (List Char)) : M (Except Exit (Options × Settings)) := do
  match ← parseLoop e args {} with
  | .error ex => .ok (.error ex)
  | .ok st =>
    match st.numbers with
    | [x] => .ok (.ok ({ st.pco with x := x }, st.set))
    | _ => .ok (.error .help)

/-- src/app/main.cpp:33-38: `int64_cast`. -/
def int64Cast (x : ℤ) : M ℤ :=
  if x > 2 ^ 63 - 1 then .error (.thrown "this is a 63-bit function, x must be < 2^63")
  else .ok (x.bmod (2 ^ 64))

/-- src/app/main.cpp:40-145: the statements common to `P2`, `S1`, `S2_trivial`, `S2_easy` and `S2_hard`; the
conversion to `int64_t` of `z` is not checked.  `f` gets `x`, `y`, `z`, `c`. -/
def part (name : String) (e : Pi.Env) (x : ℤ) (f : ℕ → ℕ → ℕ → ℕ → M I256) : M I256 := do
  if x < 1 then pure (I256.ofInt 0)
  else do
    let x := x.toNat
    let alpha ← Pi.getAlpha e x
    let limit ← Pi.getMaxX e.lib alpha
    if x > limit then .error (.thrown (name ++ "(x): x must be <= " ++ toString limit))
    else do
      let x13 ← irootM 3 e.est3 x
      let y ← Pi.yOf x13 alpha
      let z ← cdiv x y
      let c ← PhiTiny.getC y
      f x y z c

/-- src/app/main.cpp:40-56: `P2(x, threads)`; it does not compute `z` and `c`. -/
def mainP2 (e : Pi.Env) (tiny : Vec PhiTiny.Tab) (x threads : ℤ) : M I256 :=
  part "P2" e x (fun x y _ _ => P2.p2 tiny e.schedP2 e.timeP2 threads x y)
/-- src/app/main.cpp:58-76: `S1(x, threads)`; it does not compute `z`. -/
def mainS1 (e : Pi.Env) (x : ℤ) : M I256 := part "S1" e x (fun x y _ c => PS.s1 e.schedS1 x y c)
/-- src/app/main.cpp:78-100: `S2_trivial(x, threads)`; the versions for 64 and for 128 bits are the same template. -/
def mainS2Trivial (e : Pi.Env) (x threads : ℤ) : M I256 :=
  part "S2_trivial" e x (fun x y z c => S2Trivial.s2Trivial e.schedTrivial x y z c threads)
/-- src/app/main.cpp:102-124: `S2_easy(x, threads)`. -/
def mainS2Easy (e : Pi.Env) (x : ℤ) : M I256 := part "S2_easy" e x (fun x y z c => Pi.s2Easy e x y z c)
/-- src/app/main.cpp:126-145: `S2_hard(x, threads)`. -/
def mainS2Hard (e : Pi.Env) (x threads : ℤ) : M I256 :=
  part "S2_hard" e x (fun x y z c => S2Hard.s2Hard e.hard x y z c threads)

/-- The environment of an algorithm, with the tuning factor of the settings (src/primesum.cpp:162-170). -/
def algEnv (e : Env) (set : Settings) (o : Opt) : Pi.Env :=
  { e.alg o with alpha := set.alpha }

/-- The conversion of an `int64_t` to `int256_t`. -/
def ofI64 (r : M ℤ) : M I256 := do
  let r ← r
  pure (I256.ofInt r)

/-- src/app/main.cpp:160-192: the `switch`; `tiny` is the table `phiTiny`, built before `main` starts.  Other options
do not occur in `pco.option`; `res` would stay 0. -/
def run (e : Pi.Env) (tiny : Vec PhiTiny.Tab) (o : Opt) (x threads : ℤ) : M I256 :=
  match o with
  | .delegliseRivat => Pi.pi e tiny x threads
  | .delegliseRivatParallel1 => Pi.pi e tiny x threads
  | .lmo => do let x ← int64Cast x; Lmo.piLmoParallel1 e tiny x threads
  | .lmo1 => do let x ← int64Cast x; Lmo.piLmo1 e tiny x
  | .lmo2 => do let x ← int64Cast x; ofI64 (Lmo.piLmo2 e tiny x)
  | .lmo3 => do let x ← int64Cast x; ofI64 (Lmo.piLmo3 e tiny x)
  | .lmo4 => do let x ← int64Cast x; ofI64 (Lmo.piLmo4 e tiny x)
  | .lmo5 => do let x ← int64Cast x; ofI64 (Lmo.piLmo5 e tiny x)
  | .lmoParallel1 => do let x ← int64Cast x; Lmo.piLmoParallel1 e tiny x threads
  | .P2 => mainP2 e tiny x threads
  | .pi => Pi.pi e tiny x threads
  | .S1 => mainS1 e x
  | .S2Easy => mainS2Easy e x
  | .S2Hard => mainS2Hard e x threads
  | .S2Trivial => mainS2Trivial e x threads
  | _ => pure (I256.ofInt 0)

/-- The names printed by src/P2.cpp:202, src/S1.cpp:109, S2_trivial.cpp:98, S2_easy.cpp:143, S2_hard.cpp:422. -/
def label : Opt → Option String
  | .P2 => some "P2"
  | .S1 => some "S1_sum"
  | .S2Trivial => some "S2_trivial"
  | .S2Easy => some "S2_easy"
  | .S2Hard => some "S2_hard"
  | _ => none

/-- What the user sees. -/
inductive Output where
  /-- help screen, version, self-tests -/
  | exit (ex : Exit)
  /-- `Error: …` on the standard error stream, exit code 1 -/
  | error (msg : String)
  /-- the result on the standard output stream, exit code 0 -/
  | result (digits : List Char)
  /-- the result on the standard output stream after `name = `, exit code 0 -/
  | named (name : String) (digits : List Char)
deriving DecidableEq

/-- src/app/main.cpp:149-216: `main`.  With `--status`, the functions for a part of the formula set
`print_variables_` (if `x ≥ 1`) and print their result themselves. -/
def main (e : Env) (args : List (List Char)) : M Output := do
  let tiny ← PhiTiny.build
  match ← parseOptions e args with
  | .error ex => pure (.exit ex)
  | .ok (pco, set) =>
    match run (algEnv e set pco.option) tiny pco.option pco.x (getNumThreads e.ompMax set.threads) with
    | .ok res => do
      let digits ← I256.print res
      match label pco.option with
      | some name => if set.print ∧ pco.x ≥ 1 then pure (.named name digits) else pure (.result digits)
      | none => pure (.result digits)
    | .error (.thrown msg) => pure (.error msg)
    | .error err => .error err

/-- src/primesum.cpp:70-76: `pi(const string& x, int threads)`. -/
def piString (e : Pi.Env) (tiny : Vec PhiTiny.Tab) (x : String) (threads : ℤ) : M (List Char) := do
  let x ← Calc.toInt128 x
  let r ← Pi.pi e tiny x threads
  I256.print r

end PS.Main
