import Verif.Base

/-!
# OpenMP loops

`#pragma omp parallel for ... firstprivate(st) reduction(+: sum)`: the iterations are distributed over the
threads in an arbitrary way; every thread works on its own copy of the `firstprivate` variables and on its
own `sum`, which starts at zero; at the end the private sums are added to the original variable in an
arbitrary order.  A schedule lists, in the order in which the private sums are added, the iterations each
thread executed in the order it executed them.  Threads share no other mutable state in the loops modelled
with this definition.
-/

namespace PS

/-- A parallel region.  An exception that leaves it ends the program: it does not reach a handler outside. -/
def region {α : Type} (m : M α) : M α :=
  match m with
  | .error (.thrown _) => .error .terminated
  | m => m

/-- A parallel `for` loop with a `+` reduction. -/
def ompFor {σ R : Type} (add : R → R → R) (zero init : R) (st : σ) (sched : List (List ℕ))
    (body : ℕ → σ → R → M (σ × R)) : M R :=
  region <| sched.foldlM (fun acc its => do
    let sr ← its.foldlM (fun (sr : σ × R) i => body i sr.1 sr.2) (st, zero)
    pure (add acc sr.2)) init

/-- The same where adding two sums may fail. -/
def ompForM {σ R : Type} (add : R → R → M R) (zero init : R) (st : σ) (sched : List (List ℕ))
    (body : ℕ → σ → R → M (σ × R)) : M R :=
  region <| sched.foldlM (fun acc its => do
    let sr ← its.foldlM (fun (sr : σ × R) i => body i sr.1 sr.2) (st, zero)
    add acc sr.2) init

/-- The schedule executes every iteration of `for (i = lo; i < hi; i++)` exactly once. -/
def Sched (lo hi : ℕ) (sched : List (List ℕ)) : Prop :=
  sched.flatten.Perm (List.range' lo (hi - lo))

/-- A scheduler: chooses a schedule for every loop (identified by a number) of every run. -/
abbrev Scheduler := ℕ → ℕ → ℕ → List (List ℕ)

/-- All schedules chosen are schedules. -/
def Scheduler.Valid (s : Scheduler) : Prop := ∀ id lo hi, Sched lo hi (s id lo hi)

/-- One thread doing all the work in order. -/
def Scheduler.seq : Scheduler := fun _ lo hi => [List.range' lo (hi - lo)]

end PS
