import Verif.Proof.MainIter
import Verif.Props.P2Iter
import Verif.Props.LowBits
import Verif.Props.Main
import Verif.Props.Generate
import Verif.Props.Phi

/-!
# C74

The sum of the primes `≤ x`, from the command line down to the memory pools: the primes come from the primesieve library
in lib/primesieve, its iterators sieve into the buckets of its memory pools, and the pools get their memory from `new`.
`H` says what `new` returns to every object of the library that the program creates.
-/

namespace PS
open Psv Psv.Mem
open scoped Nat.Prime

/-- `pi(x, threads)` of include/primesum.hpp, with the library inside. -/
def runPiIt (env : Psv.Env) (H : Heaps) (e : Pi.Env) (x threads : ℤ) : M I256 := do
  let tiny ← PhiTiny.build
  Pi.piIt env H e tiny x threads

theorem limit_cond {e : Pi.Env} (hf : e.FP) {x : ℕ} (hx127 : x < 2 ^ 127) (hx : x < 2 ^ 106 ∨ e.limit x < x) :
    ∀ limit, Pi.getMaxX e.lib (e.alphaD x) = .ok limit → (x : ℤ) ≤ limit → x < 2 ^ 106 := by
  intro limit hl hle
  rcases hx with hx | hx
  · exact hx
  · rw [(Pi.limit_ok hf (by omega) hx127).1] at hl
    have := Except.ok.inj hl
    omega

theorem runPiIt_ref {env : Psv.Env} {H : Heaps} (hH : H.Valid) (e : Pi.Env) (hf : e.FP) (x : ℕ) (threads : ℤ)
    (hx127 : x < 2 ^ 127) (hx : x < 2 ^ 106 ∨ e.limit x < x) :
    Ref True H.NoMemory (runPiIt env H e x threads) (runPi e x threads) := by
  unfold runPiIt runPi
  exact Ref.same (fun tiny _ => Pi.piIt_ref hH.good hf tiny (limit_cond hf hx127 hx) threads)

/-- **C74.** For every `x` below about `5.2 * 10^19`, every tuning factor, number of threads, schedule and timing, every
behaviour of `new` and every content of new memory, `pi(x, threads)` is the sum of the primes `≤ x`, or `std::bad_alloc` is
thrown (which ends the program if it happens in a parallel region) because `new` refused a request for at most 16 MiB to a memory pool that had got at most 128 GiB. -/
theorem C74_pi_below {env : Psv.Env} {H : Heaps} (hH : H.Valid) (e : Pi.Env) (x : ℕ) (threads : ℤ) (hv : e.Valid)
    (hth : 1 ≤ threads) (hx : x < 52175271301331128848) :
    (NoMem True (runPiIt env H e x threads) ∧ H.NoMemory) ∨
    Ok (runPiIt env H e x threads) (fun r => r.val = primeSum x) :=
  (runPiIt_ref hH e hv.fp x threads (by omega) (Or.inl (by omega))).ok (C01_pi_below e x threads hv hth hx)

/-- Beyond that, in the range of C01.  Missing: what is missing in C01. -/
theorem C74_pi_partial {env : Psv.Env} {H : Heaps} (hH : H.Valid) (e : Pi.Env) (x : ℕ) (threads : ℤ) (hv : e.Valid)
    (hth : 1 ≤ threads) (hb : e.Reach x) (hw : x < 52175271301331128848 ∨ NoWindow x 6) :
    (NoMem True (runPiIt env H e x threads) ∧ H.NoMemory) ∨
    Ok (runPiIt env H e x threads) (fun r => r.val = primeSum x) :=
  have hlt := hb.lt
  (runPiIt_ref hH e hv.fp x threads (by omega) (Or.inl (by omega))).ok (C01_pi_reach_partial e x threads hv hth hb hw)

/-- The first wrong result remains wrong: nothing in the library makes up for it. -/
theorem C74_counterexample {env : Psv.Env} {H : Heaps} (hH : H.Valid) (e : Pi.Env) (threads : ℤ) (hv : e.Valid)
    (hth : 1 ≤ threads) :
    (NoMem True (runPiIt env H e 52175271301331128848 threads) ∧ H.NoMemory) ∨
    Ok (runPiIt env H e 52175271301331128848 threads) (fun r => r.val = primeSum 52175271301331128848 + 2 ^ 128) :=
  (runPiIt_ref (env := env) hH e hv.fp 52175271301331128848 threads (by norm_num) (Or.inl (by norm_num))).ok
    (C01_counterexample e threads hv hth)

/-- A number above the limit is refused before any memory is requested. -/
theorem C74_throws (env : Psv.Env) (H : Heaps) (e : Pi.Env) (x : ℕ) (threads : ℤ) (hf : e.FP) (h2 : 2 ≤ x) (hx : x < 2 ^ 127)
    (hlim : e.limit x < x) :
    runPiIt env H e x threads = .error (.thrown ("pi(x): x must be <= " ++ toString (e.limit x : ℤ))) := by
  obtain ⟨tiny, ht, _⟩ := PhiTiny.build_ok
  unfold runPiIt
  rw [ht, ok_bind]
  unfold Pi.piIt
  rw [if_neg (by omega)]
  dsimp only
  rw [Int.toNat_natCast, Pi.getAlpha_eq, ok_bind, (Pi.limit_ok hf (by omega) hx).1, ok_bind, if_pos (by omega)]

/-! ## The tables -/

/-- `PiTable(max)` filled by the iterator of the library: the number of primes `≤ n` for every `n ≤ max`. -/
theorem C21_iterators {env : Psv.Env} {H : Heaps} (hH : H.Valid) (max n : ℕ) (hn : n ≤ max) (hmax : max < 2 ^ 64 - 1) :
    ((do let t ← PiTable.buildIt env H max; t.at n) = .error (.thrown "std::bad_alloc") ∧ H.NoMemory) ∨
    Ok (do let t ← PiTable.buildIt env H max; t.at n) (fun r => r = π n) :=
  Ref.ok' ((PiTable.buildIt_ref hH.good hmax).bind (fun _ _ => Ref.refl)) (C21_pi_table max n hn)

/-- `pi_legendre(x)`, which counts the primes with `phi` and the library. -/
theorem C19_iterators {env : Psv.Env} {H : Heaps} (hH : H.Valid) (sched : Scheduler) (hs : sched.Valid) (x : ℕ)
    (hx : x < 2 ^ 62) :
    ((do let tiny ← PhiTiny.build; Phi.piLegendreIt env H tiny sched x) = .error (.thrown "std::bad_alloc") ∧ H.NoMemory) ∨
    Ok (do let tiny ← PhiTiny.build; Phi.piLegendreIt env H tiny sched x) (fun r => r = π x) :=
  Ref.ok' (Ref.same (fun tiny _ => Phi.piLegendreIt_ref tiny sched x H x le_rfl hH.good (by omega)))
    (C19_pi_legendre_partial sched hs x hx)

namespace Main
open Spec Calc.Spec

/-- Every output, for every option and command line: the program with the library inside shows what the program shows when the
library delivers the primes, or memory is exhausted: then it shows the error message or is terminated. -/
theorem C74_cases {env : Psv.Env} {H : Heaps} (hH : H.Valid) (e : Env) (args : List (List Char)) (out : Output)
    (hx : ∀ pco set, Accepted e args pco set → (algEnv e set pco.option).FP ∧
      (pco.x < 2 ^ 106 ∨ ((algEnv e set pco.option).limit pco.x.toNat : ℤ) < pco.x))
    (hout : out ≠ .error "std::bad_alloc") (h : main e args = .ok out) :
    mainIt env H e args = .ok out ∨
    ((mainIt env H e args = .ok (.error "failed to allocate memory, your system most likely does\n       not have enough memory to run this computation.") ∨
      mainIt env H e args = .error .terminated) ∧ H.NoMemory) := by
  obtain ⟨tiny, ht, _⟩ := PhiTiny.build_ok
  unfold main at h
  unfold mainIt
  rw [ht, ok_bind] at h ⊢
  cases hp : parseOptions e args with
  | error err => rw [hp] at h; cases h
  | ok r =>
    rw [hp, ok_bind] at h
    rw [ok_bind]
    rcases r with ex | ⟨pco, set⟩
    · exact Or.inl h
    · have ha := (C41_starts e args pco set).1 hp
      obtain ⟨hf, hx⟩ := hx pco set ha
      dsimp only at h ⊢
      have hcond : ∀ limit, Pi.getMaxX (algEnv e set pco.option).lib ((algEnv e set pco.option).alphaD pco.x.toNat) = .ok limit →
          pco.x ≤ limit → pco.x < 2 ^ 106 := by
        intro limit hl hle
        by_cases h0 : pco.x < 0
        · omega
        · have hxx : ((pco.x.toNat : ℕ) : ℤ) = pco.x := by omega
          have := limit_cond hf (x := pco.x.toNat) (by have := (x_range ha).2; omega) (by omega) limit hl (by omega)
          omega
      have key := runIt_ref (F := H.NoMemory) (env := env) hH.good hf tiny pco.option (x := pco.x) hcond (getNumThreads e.ompMax set.threads)
      cases hr : run (algEnv e set pco.option) tiny pco.option pco.x (getNumThreads e.ompMax set.threads) with
      | ok r =>
        rw [hr] at h key
        rcases key (Or.inl ⟨_, rfl⟩) with ⟨k1 | k1, k2⟩ | k
        · rw [k1]
          exact Or.inr ⟨Or.inl (by simp [pure_eq_ok]), k2⟩
        · rw [k1.1]
          exact Or.inr ⟨Or.inr rfl, k2⟩
        · rw [k]
          exact Or.inl h
      | error err =>
        rw [hr] at h key
        cases err with
        | thrown msg =>
          have hm : msg ≠ "std::bad_alloc" := by
            rintro rfl
            exact hout (Except.ok.inj h).symm
          rcases key (Or.inr ⟨_, rfl⟩) with ⟨k1 | k1, k2⟩ | k
          · rw [k1]
            exact Or.inr ⟨Or.inl (by simp [pure_eq_ok]), k2⟩
          · rw [k1.1]
            exact Or.inr ⟨Or.inr rfl, k2⟩
          · rw [k]
            dsimp only
            rw [if_neg hm]
            exact Or.inl h
        | _ => cases h

/-- **C74 for the program**: the whole command line.  `primesum x` prints the sum of the primes `≤ x` in decimal, or
`Error: failed to allocate memory, …`, or is terminated, because `new` refused a request for at most 16 MiB to a
memory pool that had got at most 128 GiB.  Missing: what is missing in `C53_pi_partial`. -/
theorem C74_program_partial {env : Psv.Env} {H : Heaps} (hH : H.Valid) (e : Env) (args : List (List Char)) (pco : Options)
    (set : Settings) (x : ℕ) (h : Accepted e args pco set) (homp : 1 ≤ e.ompMax) (ho : IsPi pco.option) (hx : pco.x = x)
    (hv : (algEnv e set pco.option).Valid) (hb : (algEnv e set pco.option).Reach x)
    (hw : x < 52175271301331128848 ∨ NoWindow x 6) :
    mainIt env H e args = .ok (.result (decimal (primeSum x))) ∨
    ((mainIt env H e args = .ok (.error "failed to allocate memory, your system most likely does\n       not have enough memory to run this computation.") ∨
      mainIt env H e args = .error .terminated) ∧ H.NoMemory) := by
  refine C74_cases hH e args _ (fun pco' set' h' => ?_) (by simp) (C53_pi_partial e args pco set x h homp ho hx hv hb hw)
  have := ((C41_starts e args pco set).2 h).symm.trans ((C41_starts e args pco' set').2 h')
  simp only [Except.ok.injEq, Prod.mk.injEq] at this
  obtain ⟨rfl, rfl⟩ := this
  have := hb.lt
  exact ⟨hv.fp, Or.inl (by omega)⟩

/-- Every other output, for every option and command line: as long as memory is available, the program with the library
inside shows what the program shows when the library delivers the primes; all theorems about `main` hold for it. -/
theorem C74_same {env : Psv.Env} {H : Heaps} (hH : H.Valid) (hm : ¬ H.NoMemory) (e : Env) (args : List (List Char))
    (out : Output) (hx : ∀ pco set, Accepted e args pco set → (algEnv e set pco.option).FP ∧
      (pco.x < 2 ^ 106 ∨ ((algEnv e set pco.option).limit pco.x.toNat : ℤ) < pco.x))
    (hout : out ≠ .error "std::bad_alloc") (h : main e args = .ok out) :
    mainIt env H e args = .ok out := by
  rcases C74_cases (env := env) hH e args out hx hout h with h | h
  · exact h
  · exact absurd h.2 hm

end Main

/-! ## Non-vacuity -/

/-- There is memory. -/
theorem heaps0_memory : ¬ Heaps.NoMemory (fun _ => heap0) := fun ⟨_, h⟩ => heap0_memory h

/-- The table for 130, filled by the library in the model. -/
example : (PiTable.buildIt env0 (fun _ => heap0) 130).toOption.map (fun t => ((t.at 63).toOption, (t.at 130).toOption)) =
    some (some 18, some 31) := by decide +kernel

example : Ok (runPiIt env0 (fun _ => heap0) (exampleEnv 3 true) (10 ^ 19) 8) (fun r => r.val = primeSum (10 ^ 19)) := by
  rcases C74_pi_below (env := env0) (H := fun _ => heap0) (fun _ _ _ => bump_valid) (exampleEnv 3 true) (10 ^ 19) 8
    (exampleEnv_valid 3 true) (by norm_num) (by norm_num) with h | h
  · exact absurd h.2 heaps0_memory
  · exact h

example : Main.mainIt env0 (fun _ => heap0) Main.exampleMainEnv ["100".toList, "--time".toList] = .ok (.result "1060".toList) := by
  obtain ⟨set, h⟩ := Main.example_accepted
  have hs : primeSum 100 = 1060 := by unfold primeSum; decide +kernel
  rcases Main.C74_program_partial (env := env0) (H := fun _ => heap0) (fun _ _ _ => bump_valid) Main.exampleMainEnv _ _ set 100 h
    (by decide) (by unfold Main.IsPi; decide) rfl (Main.exampleMainEnv_valid h _) (Or.inl (by norm_num)) (Or.inl (by norm_num)) with h | h
  · rw [h, hs]
    rfl
  · exact absurd h.2 heaps0_memory

example : Main.mainIt env0 (fun _ => heap0) Main.exampleMainEnv ["--lmo5".toList, "100".toList] = .ok (.result "1060".toList) := by
  obtain ⟨set, h⟩ := Main.example_accepted_lmo5
  have hs : primeSum 100 = 1060 := by unfold primeSum; decide +kernel
  have hm := Main.C53_lmo64_partial Main.exampleMainEnv _ _ set 100 h (by decide) rfl
    ⟨Scheduler.seq_valid, Scheduler.seq_valid, Scheduler.seq_valid, ⟨exampleLib_ok, Main.C68_accepted Main.exampleMainEnv_toDouble h⟩⟩ (by omega)
  rw [hs] at hm
  refine Main.C74_same (fun _ _ _ => bump_valid) heaps0_memory _ _ _ (fun pco' set' h' => ?_) (by simp) hm
  have := ((Main.C41_starts _ _ _ set).2 h).symm.trans ((Main.C41_starts _ _ pco' set').2 h')
  simp only [Except.ok.injEq, Prod.mk.injEq] at this
  obtain ⟨rfl, rfl⟩ := this
  exact ⟨⟨exampleLib_ok, Main.C68_accepted Main.exampleMainEnv_toDouble h⟩, Or.inl (by norm_num)⟩

end PS
