import Verif.Model.Main
import Verif.Spec.Calculator

/-!
# Specification of the command line

What an argument means, and when a command line starts a computation.  Nothing here mentions the parser of
src/app/cmdoptions.cpp; from the model only the types are used.
-/

namespace PS.Main.Spec
open Calc.Spec

/-- The spellings of an option. -/
def names : Opt → List String
  | .alpha => ["-a", "--alpha"]
  | .delegliseRivat => ["-d", "--deleglise_rivat"]
  | .delegliseRivatParallel1 => ["--deleglise_rivat_parallel1"]
  | .help => ["-h", "--help"]
  | .lmo => ["-l", "--lmo"]
  | .lmo1 => ["--lmo1"]
  | .lmo2 => ["--lmo2"]
  | .lmo3 => ["--lmo3"]
  | .lmo4 => ["--lmo4"]
  | .lmo5 => ["--lmo5"]
  | .lmoParallel1 => ["--lmo_parallel1"]
  | .number => ["--number"]
  | .P2 => ["--P2"]
  | .pi => ["--pi"]
  | .S1 => ["--S1"]
  | .S2Easy => ["--S2_easy"]
  | .S2Hard => ["--S2_hard"]
  | .S2Trivial => ["--S2_trivial"]
  | .status => ["-s", "--status"]
  | .test => ["--test"]
  | .time => ["--time"]
  | .threads => ["-t", "--threads"]
  | .version => ["-v", "--version"]

/-- `s` is a spelling of `o`. -/
def Spells (s : List Char) (o : Opt) : Prop := ∃ n ∈ names o, s = n.toList

def IsDecimal (c : Char) : Prop := '0' ≤ c ∧ c ≤ '9'

/-- The argument `s` is the option `o` with the value `v`. -/
inductive Names : List Char → Opt → List Char → Prop
  /-- `--threads` -/
  | plain {s o} : Spells s o → Names s o []
  /-- `--threads=4`; the name has no digit -/
  | eq {s o v} : Spells s o → (∀ c ∈ s, ¬ IsDecimal c) → Names (s ++ '=' :: v) o v
  /-- `-t4`; the name has no digit, and the whole is not itself an option such as `--lmo1` -/
  | digit {s o c v} : Spells s o → (∀ c ∈ s, ¬ IsDecimal c) → IsDecimal c → (∀ o', ¬ Spells (s ++ c :: v) o') →
      Names (s ++ c :: v) o (c :: v)
  /-- `10**12`: a number starts with a digit -/
  | number {c v} : IsDecimal c → Names (c :: v) .number (c :: v)
  /-- `=10**12` -/
  | number_eq {v} : v ≠ [] → Names ('=' :: v) .number v

/-- The options that select what is computed. -/
def IsAlgorithm (o : Opt) : Prop :=
  o ∉ [Opt.alpha, .help, .number, .status, .test, .time, .threads, .version]

/-- The options after which nothing is computed. -/
def Stops (o : Opt) : Prop := o ∈ [Opt.help, .test, .version]

/-- `v` is a well-formed expression of value `x`. -/
def IsValue (v : List Char) (x : ℤ) : Prop := ∃ t, Parses (String.ofList v) t ∧ t.eval = .ok x

/-- An option that does not stop the program and whose value, if it has one that matters, is meaningful. -/
def Good (e : Env) (o : Opt) (v : List Char) : Prop :=
  ¬ Stops o ∧ (o = .alpha → ∃ q, e.toDouble v = some q) ∧
    (o = .number ∨ o = .threads ∨ (o = .status ∧ v ≠ []) → ∃ x, IsValue v x)

/-- `r` is what the last argument that has something to say about it says. -/
def Last {β : Type} (P : List Char → β → Prop) (args : List (List Char)) : Option β → Prop
  | some b => ∃ pre a post, args = pre ++ a :: post ∧ P a b ∧ ∀ c ∈ post, ∀ b', ¬ P c b'
  | none => ∀ c ∈ args, ∀ b, ¬ P c b

/-- `n` as a 32-bit integer. -/
def wrap32 (n : ℤ) : ℤ := (n + 2 ^ 31) % 2 ^ 32 - 2 ^ 31

def clamp (lo n hi : ℤ) : ℤ := if n < lo then lo else if n > hi then hi else n

/-- The command line `args` starts a computation, with these parameters. -/
structure Accepted (e : Env) (args : List (List Char)) (pco : Options) (set : Settings) : Prop where
  /-- every argument is an option with a meaningful value, none of them stops the program -/
  good : ∀ a ∈ args, ∃ o v, Names a o v ∧ Good e o v
  /-- there is exactly one number -/
  number : ∃ pre a post v, args = pre ++ a :: post ∧ Names a .number v ∧ IsValue v pco.x ∧
    (∀ b ∈ pre ++ post, ∀ v, ¬ Names b .number v)
  /-- the last algorithm is run; the default is `pi(x)` -/
  algorithm : ∃ r, Last (fun a o => IsAlgorithm o ∧ ∃ v, Names a o v) args r ∧ pco.option = r.getD .pi
  time : pco.time = true ↔ ∃ a ∈ args, ∃ v, Names a .time v ∨ Names a .status v
  print : set.print = true ↔ ∃ a ∈ args, ∃ v, Names a .status v
  /-- the last number of threads, at least 1 and at most what OpenMP offers -/
  threads : ∃ r, Last (fun a n => ∃ v, Names a .threads v ∧ IsValue v n) args r ∧
    set.threads.threads = match r with | some n => clamp 1 (wrap32 n) e.ompMax | none => 0
  alpha : ∃ r, Last (fun a q => ∃ v, Names a .alpha v ∧ e.toDouble v = some q) args r ∧ set.alpha = r.getD (.fin (-1))
  precision : ∃ r, Last (fun a n => ∃ v, Names a .status v ∧ v ≠ [] ∧ IsValue v n) args r ∧
    set.statusPrecision = match r with | some n => clamp 0 (wrap32 n) 5 | none => -1

end PS.Main.Spec
