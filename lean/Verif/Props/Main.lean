import Verif.Proof.Main
import Verif.Props.Pi
import Verif.Props.Lmo
import Verif.Props.Int256

/-!
# Properties C41, C42 and C53–C55: the command line and the whole program

`Spec.Accepted e args pco set` (Spec/Main.lean) says when the command line `args` starts a computation, and which.
-/

namespace PS
namespace Main
open Spec Calc.Spec

/-! ## C41 -/

open scoped Classical in
/-- Exactly one number, from the list of all numbers. -/
theorem one_number {e : Env} {args : List (List Char)} {st : St} (hi : Inv e args st) (x : ℤ) :
    st.numbers = [x] ↔ ∃ pre a post v, args = pre ++ a :: post ∧ Names a .number v ∧ IsValue v x ∧
      (∀ b ∈ pre ++ post, ∀ v, ¬ Names b .number v) := by
  have h := hi.numbers
  constructor
  · intro hx
    rw [hx] at h
    obtain ⟨a, l, ⟨v, h1, h2⟩, h3, h4⟩ := List.forall₂_cons_right_iff.1 h
    obtain rfl := List.forall₂_nil_right_iff.1 h3
    obtain ⟨pre, post, rfl, h5, h6, h7⟩ := List.filter_eq_cons_iff.1 h4
    refine ⟨pre, a, post, v, rfl, h1, h2, fun b hb v' hn => ?_⟩
    rcases List.mem_append.1 hb with hb | hb
    · exact h5 b hb (by simpa using ⟨v', hn⟩)
    · exact (List.filter_eq_nil_iff.1 h7) b hb (by simpa using ⟨v', hn⟩)
  · rintro ⟨pre, a, post, v, rfl, h1, h2, h3⟩
    have h4 : (pre ++ a :: post).filter (fun a => ∃ v, Names a .number v) = [a] := by
      rw [List.filter_append, List.filter_cons, if_pos (by simpa using ⟨v, h1⟩)]
      rw [List.filter_eq_nil_iff.2, List.filter_eq_nil_iff.2]
      · rfl
      · intro b hb
        simp only [decide_eq_true_eq]
        exact fun ⟨v, hn⟩ => h3 b (List.mem_append_right _ hb) v hn
      · intro b hb
        simp only [decide_eq_true_eq]
        exact fun ⟨v, hn⟩ => h3 b (List.mem_append_left _ hb) v hn
    rw [h4] at h
    obtain ⟨x', l, ⟨v', h5, h6⟩, h7, h8⟩ := List.forall₂_cons_left_iff.1 h
    obtain rfl := List.forall₂_nil_left_iff.1 h7
    rw [h8]
    obtain ⟨-, rfl⟩ := h1.unique h5
    rw [h2.unique h6]

/-- A computation starts exactly for the command lines that are accepted, and with the parameters given there: every
argument is an option with a meaningful value, there is exactly one number, the last algorithm wins. -/
theorem C41_starts (e : Env) (args : List (List Char)) (pco : Options) (set : Settings) :
    parseOptions e args = .ok (.ok (pco, set)) ↔ Accepted e args pco set := by
  constructor
  · intro h
    unfold parseOptions at h
    cases hl : parseLoop e args {} with
    | error err => rw [hl] at h; simp at h
    | ok r =>
      rw [hl, ok_bind] at h
      cases r with
      | error ex => simp at h
      | ok st =>
        have hg := good_of_parseLoop args _ _ hl
        obtain ⟨st', h1, hi⟩ := parseLoop_good args [] {} (Inv.init e) hg []
        rw [List.append_nil, hl, parseLoop] at h1
        simp only [Except.ok.injEq] at h1
        subst h1
        rw [List.nil_append] at hi
        dsimp only at h
        split at h
        · next x hx =>
          simp only [Except.ok.injEq, Prod.mk.injEq] at h
          obtain ⟨rfl, rfl⟩ := h
          exact ⟨hg, (one_number hi x).1 hx, hi.algorithm, hi.time, hi.print, hi.threads, hi.alpha, hi.precision⟩
        · simp at h
  · intro h
    obtain ⟨st, h1, hi⟩ := parseLoop_good args [] {} (Inv.init e) h.good []
    rw [List.append_nil, parseLoop] at h1
    rw [List.nil_append] at hi
    have hx := (one_number hi pco.x).2 h.number
    unfold parseOptions
    rw [h1, ok_bind]
    dsimp only
    rw [hx]
    dsimp only
    have e1 : pco = { st.pco with x := pco.x } := by
      obtain ⟨r, a1, a2⟩ := h.algorithm
      obtain ⟨r', a3, a4⟩ := hi.algorithm
      have := Last.unique (fun a b b' ⟨_, _, h⟩ ⟨_, _, h'⟩ => (h.unique h').1) a1 a3
      subst this
      have ht : pco.time = st.pco.time := Bool.eq_iff_iff.2 (h.time.trans hi.time.symm)
      obtain ⟨x, o, t⟩ := pco
      dsimp only at a2 ht ⊢
      rw [a2, a4.symm, ht]
    have e2 : set = st.set := by
      obtain ⟨r1, a1, a2⟩ := h.threads
      obtain ⟨r1', a3, a4⟩ := hi.threads
      have := Last.unique (P := PThr) (fun a b b' ⟨_, h, w⟩ ⟨_, h', w'⟩ => by
        obtain ⟨-, rfl⟩ := h.unique h'
        exact w.unique w') a1 a3
      subst this
      obtain ⟨r2, b1, b2⟩ := h.alpha
      obtain ⟨r2', b3, b4⟩ := hi.alpha
      have := Last.unique (P := PAlpha e) (fun a b b' ⟨_, h, w⟩ ⟨_, h', w'⟩ => by
        obtain ⟨-, rfl⟩ := h.unique h'
        rw [w] at w'
        exact Option.some.inj w') b1 b3
      subst this
      obtain ⟨r3, c1, c2⟩ := h.precision
      obtain ⟨r3', c3, c4⟩ := hi.precision
      have := Last.unique (P := PPrec) (fun a b b' ⟨_, h, _, w⟩ ⟨_, h', _, w'⟩ => by
        obtain ⟨-, rfl⟩ := h.unique h'
        exact w.unique w') c1 c3
      subst this
      have ht : set.print = st.set.print := Bool.eq_iff_iff.2 (h.print.trans hi.print.symm)
      have e3 := a2.trans a4.symm
      have e4 := b2.trans b4.symm
      have e5 := c2.trans c4.symm
      clear a2 a4 b2 b4 c2 c4
      obtain ⟨⟨t⟩, p, a, b⟩ := set
      obtain ⟨_, _, ⟨⟨t'⟩, p', a', b'⟩⟩ := st
      dsimp only at e3 e4 e5 ht ⊢
      rw [e3, e4, e5, ht]
    rw [e2, ← e1]

/-- The first argument that is not good decides: an unknown one prints the help and stops. -/
theorem C41_unknown (e : Env) (pre post : List (List Char)) (a : List Char)
    (hpre : ∀ b ∈ pre, ∃ o v, Names b o v ∧ Good e o v) (h : ∀ o v, ¬ Names a o v) :
    parseOptions e (pre ++ a :: post) = .ok (.error .help) := by
  obtain ⟨st, h1, hi⟩ := parseLoop_good pre [] {} (Inv.init e) hpre (a :: post)
  unfold parseOptions
  rw [h1, parseLoop, step_unknown h]
  rfl

/-- `--help`, `--version` and `--test`. -/
theorem C41_stops (e : Env) (pre post : List (List Char)) (a v : List Char) (o : Opt)
    (hpre : ∀ b ∈ pre, ∃ o v, Names b o v ∧ Good e o v) (h : Names a o v) (ho : Stops o) :
    parseOptions e (pre ++ a :: post) =
      .ok (.error (if o = .version then .version else if o = .test then .test else .help)) := by
  obtain ⟨st, h1, hi⟩ := parseLoop_good pre [] {} (Inv.init e) hpre (a :: post)
  unfold parseOptions
  rw [h1, parseLoop, step_stops h ho]
  rfl

/-- An option whose value cannot be parsed prints the help and stops, unless the expression has undefined behaviour
(C40). -/
theorem C41_bad_value (e : Env) (pre post : List (List Char)) (a v : List Char) (o : Opt)
    (hpre : ∀ b ∈ pre, ∃ o v, Names b o v ∧ Good e o v) (h : Names a o v) (ho : ¬ Stops o) (hg : ¬ Good e o v) :
    parseOptions e (pre ++ a :: post) = .ok (.error .help) ∨ parseOptions e (pre ++ a :: post) = .error .overflow ∨
      parseOptions e (pre ++ a :: post) = .error .shift := by
  obtain ⟨st, h1, hi⟩ := parseLoop_good pre [] {} (Inv.init e) hpre (a :: post)
  unfold parseOptions
  rw [h1, parseLoop]
  rcases step_bad_value (st := st) h ho hg with h2 | h2 | h2 <;> rw [h2]
  · exact Or.inl rfl
  · exact Or.inr (Or.inl rfl)
  · exact Or.inr (Or.inr rfl)

/-- No number, or more than one: the help is printed. -/
theorem C41_not_one (e : Env) (args : List (List Char)) (hg : ∀ b ∈ args, ∃ o v, Names b o v ∧ Good e o v)
    (h : ¬ ∃ pre a post v, args = pre ++ a :: post ∧ Names a .number v ∧ ∀ b ∈ pre ++ post, ∀ v, ¬ Names b .number v) :
    parseOptions e args = .ok (.error .help) := by
  obtain ⟨st, h1, hi⟩ := parseLoop_good args [] {} (Inv.init e) hg []
  rw [List.append_nil, parseLoop] at h1
  rw [List.nil_append] at hi
  unfold parseOptions
  rw [h1, ok_bind]
  dsimp only
  split
  · next x hx =>
    obtain ⟨pre, a, post, v, h2, h3, _, h4⟩ := (one_number hi x).1 hx
    exact absurd ⟨pre, a, post, v, h2, h3, h4⟩ h
  · rfl

/-- Every command line either starts a computation or prints something and stops, unless an expression has undefined
behaviour. -/
theorem C41_total (e : Env) (args : List (List Char)) :
    (∃ pco set, Accepted e args pco set) ∨ (∃ ex, parseOptions e args = .ok (.error ex)) ∨
      parseOptions e args = .error .overflow ∨ parseOptions e args = .error .shift := by
  have key : ∀ (args : List (List Char)) (st : St), (∃ r, parseLoop e args st = .ok r) ∨
      parseLoop e args st = .error .overflow ∨ parseLoop e args st = .error .shift := by
    intro args
    induction args with
    | nil => exact fun st => Or.inl ⟨_, rfl⟩
    | cons a args ih =>
      intro st
      rw [parseLoop]
      have hs : (∃ r, step e st a = .ok r) ∨ step e st a = .error .overflow ∨ step e st a = .error .shift := by
        by_cases hn : ∀ o v, ¬ Names a o v
        · exact Or.inl ⟨_, step_unknown hn⟩
        · push Not at hn
          obtain ⟨o, v, hn⟩ := hn
          by_cases ho : Stops o
          · exact Or.inl ⟨_, step_stops hn ho⟩
          · by_cases hg : Good e o v
            · refine Or.inl ?_
              rw [step_eq hn]
              by_cases ha : IsAlgorithm o
              · exact ⟨_, (step_eq hn).symm.trans (step_algorithm hn ha)⟩
              · obtain ⟨_, g2, g3⟩ := hg
                cases o
                case alpha => obtain ⟨q, hq⟩ := g2 rfl; exact ⟨_, by dsimp only [apply]; rw [hq]⟩
                case number =>
                  obtain ⟨n, hn⟩ := g3 (Or.inl rfl)
                  exact ⟨_, by dsimp only [apply]; rw [toInt128?_of_value hn, ok_bind]⟩
                case threads =>
                  obtain ⟨n, hn⟩ := g3 (Or.inr (Or.inl rfl))
                  exact ⟨_, by dsimp only [apply]; rw [toInt128?_of_value hn, ok_bind]⟩
                case status =>
                  by_cases hv : v = []
                  · exact ⟨_, by dsimp only [apply]; rw [if_neg (by simpa using hv)]⟩
                  · obtain ⟨n, hn⟩ := g3 (Or.inr (Or.inr ⟨rfl, hv⟩))
                    exact ⟨_, by dsimp only [apply]; rw [if_pos hv, toInt128?_of_value hn, ok_bind]⟩
                case time => exact ⟨_, rfl⟩
                all_goals first
                  | exact absurd (by unfold Stops; decide) ho
                  | exact absurd (by unfold IsAlgorithm; decide) ha
            · rcases step_bad_value (st := st) hn ho hg with h | h | h
              · exact Or.inl ⟨_, h⟩
              · exact Or.inr (Or.inl h)
              · exact Or.inr (Or.inr h)
      rcases hs with ⟨r, hr⟩ | hr | hr
      · rw [hr, ok_bind]
        cases r with
        | ok st' => exact ih st'
        | error ex => exact Or.inl ⟨_, rfl⟩
      · rw [hr]; exact Or.inr (Or.inl rfl)
      · rw [hr]; exact Or.inr (Or.inr rfl)
  have h2 : (∃ r, parseOptions e args = .ok r) ∨ parseOptions e args = .error .overflow ∨
      parseOptions e args = .error .shift := by
    unfold parseOptions
    rcases key args {} with ⟨r, hr⟩ | hr | hr
    · left
      rw [hr, ok_bind]
      cases r with
      | error ex => exact ⟨_, rfl⟩
      | ok st => dsimp only; split <;> exact ⟨_, rfl⟩
    · rw [hr]; exact Or.inr (Or.inl rfl)
    · rw [hr]; exact Or.inr (Or.inr rfl)
  rcases h2 with ⟨r, hr⟩ | h
  · cases r with
    | error ex => exact Or.inr (Or.inl ⟨ex, hr⟩)
    | ok p => exact Or.inl ⟨p.1, p.2, (C41_starts e args p.1 p.2).1 hr⟩
  · exact Or.inr (Or.inr h)

/-- An environment for the examples. -/
def exampleMainEnv : Env := ⟨8, fun v => if v = ['2'] then some (.fin 2) else none, fun _ => exampleEnv 3 true⟩

/-- If `to_double` never returns NaN (the standard library of GCC rejects "nan"), the tuning factor is not NaN. -/
theorem C68_accepted {e : Env} {args : List (List Char)} {pco : Options} {set : Settings}
    (hn : ∀ v, e.toDouble v ≠ some .nan) (h : Accepted e args pco set) : set.alpha ≠ .nan := by
  obtain ⟨r, h1, h2⟩ := h.alpha
  rw [h2]
  cases r with
  | none => simp
  | some q =>
    obtain ⟨_, _, _, _, ⟨v, _, hv⟩, _⟩ := h1
    rintro rfl
    exact hn v hv

theorem exampleMainEnv_toDouble (v : List Char) : exampleMainEnv.toDouble v ≠ some .nan := by
  unfold exampleMainEnv
  dsimp only
  split <;> simp

/-- Non-vacuity. -/
theorem exampleMainEnv_valid {args : List (List Char)} {pco : Options} {set : Settings}
    (h : Accepted exampleMainEnv args pco set) (o : Opt) : (algEnv exampleMainEnv set o).Valid :=
  ⟨Scheduler.seq_valid, Scheduler.seq_valid, Scheduler.seq_valid, Scheduler.seq_valid, Scheduler.seq_valid,
    Merge_seq_valid, ⟨exampleLib_ok, C68_accepted exampleMainEnv_toDouble h⟩⟩

/-- `primesum --lmo 1000 -t4 --pi -s2 --alpha=2` runs `pi(1000)` with 4 threads and tuning factor 2. -/
example : ∃ o s, parseOptions exampleMainEnv
    ["--lmo".toList, "1000".toList, "-t4".toList, "--pi".toList, "-s2".toList, "--alpha=2".toList] = .ok (.ok (o, s)) ∧
      o.x = 1000 ∧ o.option = .pi ∧ o.time = true ∧ s.threads.threads = 4 ∧ s.alpha = .fin 2 ∧ s.print = true ∧
      s.statusPrecision = 2 := by
  have h1 : ((parseOptions exampleMainEnv ["--lmo".toList, "1000".toList, "-t4".toList, "--pi".toList, "-s2".toList,
      "--alpha=2".toList]).toOption.map (fun r => match r with
        | .ok (o, s) => decide (o.x = 1000 ∧ o.option = .pi ∧ o.time = true ∧ s.threads.threads = 4 ∧ s.alpha = .fin 2 ∧
            s.print = true ∧ s.statusPrecision = 2)
        | .error _ => false)) = some true := by decide +kernel
  revert h1
  generalize parseOptions exampleMainEnv _ = r
  rcases r with err | ex | ⟨o, s⟩
  · simp [Except.toOption]
  · simp [Except.toOption]
  · intro h1
    simp only [Except.toOption, Option.map_some, Option.some.injEq, decide_eq_true_eq] at h1
    exact ⟨o, s, rfl, h1⟩

/-- An expression must start with a digit: `(1+2)` and `-5` print the help; `--number=(1+2)` is accepted.  `--lmo6`
is `--lmo`. -/
example : ((parseOptions exampleMainEnv ["(1+2)".toList]).toOption.map (fun r => r.isOk)) = some false ∧
    ((parseOptions exampleMainEnv ["-5".toList]).toOption.map (fun r => r.isOk)) = some false ∧
    ((parseOptions exampleMainEnv ["--number=(1+2)".toList]).toOption.map (fun r => r.isOk)) = some true ∧
    makeOption "--lmo6".toList = (.lmo, ['6']) ∧
    ((parseOptions exampleMainEnv ["5".toList, "6".toList]).toOption.map (fun r => r.isOk)) = some false ∧
    ((parseOptions exampleMainEnv []).toOption.map (fun r => r.isOk)) = some false := by decide +kernel

/-! ## The whole program -/

/-- What `main` prints after a computation. -/
theorem main_accepted {e : Env} {args : List (List Char)} {pco : Options} {set : Settings}
    (h : Accepted e args pco set) {P : Output → Prop}
    (hr : Ok PhiTiny.build (fun tiny =>
      Ok (run (algEnv e set pco.option) tiny pco.option pco.x (getNumThreads e.ompMax set.threads)) (fun r =>
        Ok (I256.print r) (fun digits => P (match label pco.option with
          | some name => if set.print ∧ pco.x ≥ 1 then .named name digits else .result digits
          | none => .result digits))))) : Ok (main e args) P := by
  obtain ⟨tiny, h1, r, h2, d, h3, h4⟩ := hr
  unfold main
  rw [h1, ok_bind, (C41_starts e args pco set).2 h, ok_bind]
  dsimp only
  rw [h2]
  dsimp only
  rw [h3, ok_bind]
  cases hl : label pco.option with
  | none =>
    rw [hl] at h4
    exact Ok.pure h4
  | some name =>
    rw [hl] at h4
    dsimp only at h4 ⊢
    split_ifs at h4 ⊢ with hc
    · exact Ok.pure h4
    · exact Ok.pure h4

/-- A computation that throws. -/
theorem main_throws {e : Env} {args : List (List Char)} {pco : Options} {set : Settings}
    (h : Accepted e args pco set) {msg : String}
    (hr : ∀ tiny, run (algEnv e set pco.option) tiny pco.option pco.x (getNumThreads e.ompMax set.threads) =
      .error (.thrown msg)) : main e args = .ok (.error msg) := by
  obtain ⟨tiny, h1, _⟩ := PhiTiny.build_ok
  unfold main
  rw [h1, ok_bind, (C41_starts e args pco set).2 h, ok_bind]
  dsimp only
  rw [hr]
  rfl

/-- Otherwise nothing is computed. -/
theorem C41_exit (e : Env) (args : List (List Char)) (ex : Exit) (h : parseOptions e args = .ok (.error ex)) :
    main e args = .ok (.exit ex) := by
  obtain ⟨tiny, h1, _⟩ := PhiTiny.build_ok
  unfold main
  rw [h1, ok_bind, h, ok_bind]
  rfl

/-! ## C42 -/

/-- The options of the 63-bit algorithms. -/
def IsLmo (o : Opt) : Prop := o ∈ [Opt.lmo, .lmo1, .lmo2, .lmo3, .lmo4, .lmo5, .lmoParallel1]

/-- Every `x ≥ 2^63` is rejected with an error message; no result is printed. -/
theorem C42_rejects (e : Env) (args : List (List Char)) (pco : Options) (set : Settings) (h : Accepted e args pco set)
    (ho : IsLmo pco.option) (hx : 2 ^ 63 ≤ pco.x) :
    main e args = .ok (.error "this is a 63-bit function, x must be < 2^63") := by
  refine main_throws h (fun tiny => ?_)
  have hc : int64Cast pco.x = .error (.thrown "this is a 63-bit function, x must be < 2^63") := by
    unfold int64Cast
    rw [if_pos (by omega)]
  unfold IsLmo at ho
  simp only [List.mem_cons, List.not_mem_nil, or_false] at ho
  unfold run
  rcases ho with h | h | h | h | h | h | h <;> rw [h] <;> dsimp only <;> rw [hc] <;> rfl

/-- `x < -2^63` is not rejected: the algorithm runs for the lower 64 bits of `x`. -/
theorem C42_truncates (x : ℤ) (h : x < -2 ^ 63) : int64Cast x = .ok (x.bmod (2 ^ 64)) := by
  unfold int64Cast
  rw [if_neg (by omega)]

/-- `primesum --lmo --number=-18446744073709551611` prints 10, the sum of the primes up to 5; the correct answer
is 0 (C04). -/
theorem C42_counterexample : main exampleMainEnv ["--lmo".toList, "--number=-18446744073709551611".toList] =
    .ok (.result ['1', '0']) := by
  obtain ⟨tiny, h1, h2⟩ := PhiTiny.build_ok
  have hp : parseOptions exampleMainEnv ["--lmo".toList, "--number=-18446744073709551611".toList] =
      .ok (.ok ({ x := -18446744073709551611, option := .lmo }, {})) := by
    rfl
  have hs : primeSum 5 = 10 := by unfold primeSum; decide +kernel
  obtain ⟨r, h3, h4⟩ := C10_below (exampleEnv (-1) true) 5 8 (exampleEnv_lmo (-1) true) (by norm_num) (by norm_num)
  unfold main
  rw [h1, ok_bind, hp, ok_bind]
  dsimp only
  have hr : run (algEnv exampleMainEnv {} .lmo) tiny .lmo (-18446744073709551611)
      (getNumThreads exampleMainEnv.ompMax {}) = .ok r := by
    rw [← h3]
    show _ = (do let tiny ← PhiTiny.build; Lmo.piLmoParallel1 (exampleEnv (-1) true) tiny (5 : ℕ) 8)
    rw [h1, ok_bind]
    rfl
  rw [hr]
  dsimp only
  rw [I256.C38_print256_partial r (by rw [h4]; generalize primeSum 5 = s; omega), h4, hs]
  rfl

/-! ## C53: the result on the screen -/

/-- The number of threads is positive. -/
theorem threads_pos {e : Env} {args : List (List Char)} {pco : Options} {set : Settings} (h : Accepted e args pco set)
    (ho : 1 ≤ e.ompMax) : 1 ≤ getNumThreads e.ompMax set.threads := by
  obtain ⟨r, -, h2⟩ := h.threads
  unfold getNumThreads
  cases r with
  | none =>
    rw [if_neg (by rw [h2]; simp)]
    omega
  | some n =>
    dsimp only at h2
    have : 1 ≤ set.threads.threads := by
      rw [h2]
      unfold clamp
      split_ifs <;> omega
    rw [if_pos (by omega)]
    exact this

theorem threads_le {e : Env} {args : List (List Char)} {pco : Options} {set : Settings} (h : Accepted e args pco set)
    (ho : 1 ≤ e.ompMax) : getNumThreads e.ompMax set.threads ≤ e.ompMax := by
  obtain ⟨r, -, h2⟩ := h.threads
  unfold getNumThreads
  cases r with
  | none =>
    rw [if_neg (by rw [h2]; simp)]
    omega
  | some n =>
    dsimp only at h2
    rw [h2]
    unfold clamp
    split_ifs <;> omega

/-- The number is a 128-bit integer. -/
theorem x_range {e : Env} {args : List (List Char)} {pco : Options} {set : Settings} (h : Accepted e args pco set) :
    -2 ^ 127 ≤ pco.x ∧ pco.x < 2 ^ 127 := by
  obtain ⟨_, _, _, _, -, -, ⟨t, -, h1⟩, -⟩ := h.number
  exact Calc.eval_R h1

theorem decimal_fits {x : ℕ} (hx : x < 2 ^ 124) {r : I256} (hr : r.val = primeSum x) :
    I256.print r = .ok (decimal (primeSum x)) := by
  have h1 := primeSum_le_sq x
  have h2 : x * x ≤ 2 ^ 124 * 2 ^ 124 := Nat.mul_le_mul hx.le hx.le
  rw [I256.C38_print256_partial r (by rw [hr]; omega), hr]

/-- The options for which `main` calls `pi_deleglise_rivat_parallel1`. -/
def IsPi (o : Opt) : Prop := o ∈ [Opt.pi, .delegliseRivat, .delegliseRivatParallel1]

/-- The program prints the sum of the primes `≤ x` in decimal, whatever the other options.  Full claim: for every `x`
up to the limit; it is false (C01).  Missing: the `x` excluded by `NoWindow`, and the `x` out of reach (`Reach`: `x ≥ 2^88`, with the default tuning factor `x > 5 * 10^29`). -/
theorem C53_pi_partial (e : Env) (args : List (List Char)) (pco : Options) (set : Settings) (x : ℕ)
    (h : Accepted e args pco set) (homp : 1 ≤ e.ompMax) (ho : IsPi pco.option) (hx : pco.x = x)
    (hv : (algEnv e set pco.option).Valid)
    (hb : (algEnv e set pco.option).Reach x) (hw : x < 52175271301331128848 ∨ NoWindow x 6) :
    main e args = .ok (.result (decimal (primeSum x))) := by
  obtain ⟨tiny, h1, _⟩ := PhiTiny.build_ok
  obtain ⟨r, h2, h3⟩ := C01_pi_reach_partial _ x _ hv (threads_pos h homp) hb hw
  have hlt := hb.lt
  have hr : run (algEnv e set pco.option) tiny pco.option pco.x (getNumThreads e.ompMax set.threads) = .ok r := by
    rw [← h2]
    show _ = (do let tiny ← PhiTiny.build; Pi.pi _ tiny x _)
    rw [h1, ok_bind, hx]
    unfold IsPi at ho
    simp only [List.mem_cons, List.not_mem_nil, or_false] at ho
    rcases ho with h | h | h <;> rw [h] <;> rfl
  obtain ⟨out, h4, h5⟩ := main_accepted h (P := fun out => out = .result (decimal (primeSum x)))
    ⟨tiny, h1, r, hr, _, decimal_fits (by omega) h3, by
      unfold IsPi at ho
      simp only [List.mem_cons, List.not_mem_nil, or_false] at ho
      rcases ho with h | h | h <;> rw [h] <;> rfl⟩
  rw [h4, h5]

/-- For a larger `x` than the limit the program prints an error message and no result. -/
theorem C53_too_large (e : Env) (args : List (List Char)) (pco : Options) (set : Settings) (x : ℕ)
    (h : Accepted e args pco set) (ho : IsPi pco.option) (hx : pco.x = x) (h2 : 2 ≤ x)
    (hf : (algEnv e set pco.option).FP) (hlim : (algEnv e set pco.option).limit x < x) :
    main e args = .ok (.error ("pi(x): x must be <= " ++
      toString ((algEnv e set pco.option).limit x : ℤ))) := by
  obtain ⟨tiny, h1, _⟩ := PhiTiny.build_ok
  have hx2 : x < 2 ^ 127 := by have := (x_range h).2; omega
  have h3 := C43_throws (algEnv e set pco.option) x (getNumThreads e.ompMax set.threads) hf h2 hx2 hlim
  change (do let tiny ← PhiTiny.build; Pi.pi _ tiny x _) = _ at h3
  rw [h1, ok_bind] at h3
  unfold main
  rw [h1, ok_bind, (C41_starts e args pco set).2 h, ok_bind]
  dsimp only
  have hr : run (algEnv e set pco.option) tiny pco.option pco.x (getNumThreads e.ompMax set.threads) =
      Pi.pi (algEnv e set pco.option) tiny x (getNumThreads e.ompMax set.threads) := by
    rw [hx]
    unfold IsPi at ho
    simp only [List.mem_cons, List.not_mem_nil, or_false] at ho
    rcases ho with h | h | h <;> rw [h] <;> rfl
  rw [hr, h3]
  rfl

/-- `--lmo`, `--lmo_parallel1` and `--lmo1`: the result is printed in decimal for every `x < 2^63`.  For the first two `y` has to be
below `2^31` (C10), which is the case for every tuning factor if `x < 2^62`. -/
theorem C53_lmo_partial (e : Env) (args : List (List Char)) (pco : Options) (set : Settings) (x : ℕ)
    (h : Accepted e args pco set) (homp : 1 ≤ e.ompMax)
    (ho : pco.option = .lmo ∨ pco.option = .lmoParallel1 ∨ pco.option = .lmo1) (hx : pco.x = x)
    (hv : Lmo.EnvValid (algEnv e set pco.option)) (hb : x < 2 ^ 63)
    (hy31 : pco.option ≠ .lmo1 → (algEnv e set pco.option).yL x < 2 ^ 31) :
    main e args = .ok (.result (decimal (primeSum x))) := by
  obtain ⟨tiny, h1, _⟩ := PhiTiny.build_ok
  have hc : int64Cast x = .ok (x : ℤ) := by
    unfold int64Cast
    rw [if_neg (by omega), Int.bmod_eq_of_le (by omega) (by omega)]
  have key : ∃ r, run (algEnv e set pco.option) tiny pco.option pco.x (getNumThreads e.ompMax set.threads) = .ok r ∧
      r.val = primeSum x := by
    rcases ho with ho | ho | ho
    · obtain ⟨r, h2, h3⟩ := C10_pi_lmo_parallel1_partial _ x _ hv (threads_pos h homp) hb (hy31 (by simp [ho]))
      refine ⟨r, ?_, h3⟩
      rw [← h2, hx]
      show _ = (do let tiny ← PhiTiny.build; Lmo.piLmoParallel1 _ tiny (x : ℤ) _)
      rw [h1, ok_bind, ho]
      unfold run
      dsimp only
      rw [hc, ok_bind]
    · obtain ⟨r, h2, h3⟩ := C10_pi_lmo_parallel1_partial _ x _ hv (threads_pos h homp) hb (hy31 (by simp [ho]))
      refine ⟨r, ?_, h3⟩
      rw [← h2, hx]
      show _ = (do let tiny ← PhiTiny.build; Lmo.piLmoParallel1 _ tiny (x : ℤ) _)
      rw [h1, ok_bind, ho]
      unfold run
      dsimp only
      rw [hc, ok_bind]
    · obtain ⟨r, h2, h3⟩ := C05_pi_lmo1 _ x hv.schedP2 (by omega)
      refine ⟨r, ?_, h3⟩
      rw [← h2, hx]
      show _ = (do let tiny ← PhiTiny.build; Lmo.piLmo1 _ tiny (x : ℤ))
      rw [h1, ok_bind, ho]
      unfold run
      dsimp only
      rw [hc, ok_bind]
  obtain ⟨r, h2, h3⟩ := key
  obtain ⟨out, h4, h5⟩ := main_accepted h (P := fun out => out = .result (decimal (primeSum x)))
    ⟨tiny, h1, r, h2, _, decimal_fits (by omega) h3, by rcases ho with ho | ho | ho <;> rw [ho] <;> rfl⟩
  rw [h4, h5]

/-- `--lmo2` to `--lmo5`: the same if the sum of the primes fits in 63 bits.  Missing: an overflow of the `int64_t`
arithmetic in the model wraps around (C06, C07, C09). -/
theorem C53_lmo64_partial (e : Env) (args : List (List Char)) (pco : Options) (set : Settings) (x : ℕ)
    (h : Accepted e args pco set)
    (ho : pco.option = .lmo2 ∨ pco.option = .lmo3 ∨ pco.option = .lmo4 ∨ pco.option = .lmo5) (hx : pco.x = x)
    (hv : Lmo.EnvValid (algEnv e set pco.option)) (hfit : primeSum x < 2 ^ 63) :
    main e args = .ok (.result (decimal (primeSum x))) := by
  obtain ⟨tiny, h1, _⟩ := PhiTiny.build_ok
  have hb := C06_domain x hfit
  have hc : int64Cast x = .ok (x : ℤ) := by
    unfold int64Cast
    rw [if_neg (by omega), Int.bmod_eq_of_le (by omega) (by omega)]
  have key : ∃ r, run (algEnv e set pco.option) tiny pco.option pco.x (getNumThreads e.ompMax set.threads) = .ok r ∧
      r.val = primeSum x := by
    refine ⟨I256.ofInt (primeSum x), ?_, ?_⟩
    · rw [hx]
      rcases ho with ho | ho | ho | ho <;> rw [ho] at hv ⊢ <;> unfold run <;> dsimp only <;> rw [hc, ok_bind]
      · obtain ⟨r, h2, h3⟩ := C06_pi_lmo2_partial _ x hv hfit
        change (do let tiny ← PhiTiny.build; Lmo.piLmo2 _ tiny (x : ℤ)) = _ at h2
        rw [h1, ok_bind] at h2
        rw [h2, h3]; rfl
      · obtain ⟨r, h2, h3⟩ := C07_pi_lmo3_partial _ x hv hfit
        change (do let tiny ← PhiTiny.build; Lmo.piLmo3 _ tiny (x : ℤ)) = _ at h2
        rw [h1, ok_bind] at h2
        rw [h2, h3]; rfl
      · obtain ⟨r, h2, h3⟩ := C08_pi_lmo4 _ x hv hfit
        change (do let tiny ← PhiTiny.build; Lmo.piLmo4 _ tiny (x : ℤ)) = _ at h2
        rw [h1, ok_bind] at h2
        rw [h2, h3]; rfl
      · obtain ⟨r, h2, h3⟩ := C09_pi_lmo5_partial _ x hv hfit
        change (do let tiny ← PhiTiny.build; Lmo.piLmo5 _ tiny (x : ℤ)) = _ at h2
        rw [h1, ok_bind] at h2
        rw [h2, h3]; rfl
    · exact LawfulRes.rep_val (R := I256) _ _ (LawfulRes.rep_ofInt (R := I256) _ (by omega) (by omega))
        (primeSum_inRange (by omega))
  obtain ⟨r, h2, h3⟩ := key
  obtain ⟨out, h4, h5⟩ := main_accepted h (P := fun out => out = .result (decimal (primeSum x)))
    ⟨tiny, h1, r, h2, _, decimal_fits (by omega) h3, by rcases ho with ho | ho | ho | ho <;> rw [ho] <;> rfl⟩
  rw [h4, h5]

/-- For `x < 2` every algorithm prints 0. -/
theorem C53_small (e : Env) (args : List (List Char)) (pco : Options) (set : Settings)
    (h : Accepted e args pco set) (ho : IsPi pco.option ∨ (IsLmo pco.option ∧ -2 ^ 63 ≤ pco.x)) (hx : pco.x < 2) :
    main e args = .ok (.result ['0']) := by
  obtain ⟨tiny, h1, _⟩ := PhiTiny.build_ok
  have key : ∃ r, run (algEnv e set pco.option) tiny pco.option pco.x (getNumThreads e.ompMax set.threads) = .ok r ∧
      r.val = 0 := by
    rcases ho with ho | ⟨ho, hx2⟩
    · obtain ⟨r, h2, h3⟩ := C04_pi_small (algEnv e set pco.option) pco.x (getNumThreads e.ompMax set.threads) hx
      refine ⟨r, ?_, h3⟩
      rw [← h2]
      show _ = (do let tiny ← PhiTiny.build; Pi.pi _ tiny pco.x _)
      rw [h1, ok_bind]
      unfold IsPi at ho
      simp only [List.mem_cons, List.not_mem_nil, or_false] at ho
      rcases ho with h | h | h <;> rw [h] <;> rfl
    · have hc : int64Cast pco.x = .ok pco.x := by
        unfold int64Cast
        rw [if_neg (by omega), Int.bmod_eq_of_le (by omega) (by omega)]
      obtain ⟨⟨r1, a1, b1⟩, ⟨r2, a2, b2⟩, ⟨r3, a3, b3⟩, ⟨r4, a4, b4⟩, ⟨r5, a5, b5⟩, r6, a6, b6⟩ :=
        C04_lmo_small (algEnv e set pco.option) pco.x (getNumThreads e.ompMax set.threads) hx
      change (do let tiny ← PhiTiny.build; _) = _ at a1 a2 a3 a4 a5 a6
      rw [h1, ok_bind] at a1 a2 a3 a4 a5 a6
      have h0 : (I256.ofInt 0).val = 0 := by decide
      unfold IsLmo at ho
      simp only [List.mem_cons, List.not_mem_nil, or_false] at ho
      unfold run
      rcases ho with h | h | h | h | h | h | h <;> rw [h] at a1 a2 a3 a4 a5 a6 ⊢ <;> dsimp only <;> rw [hc, ok_bind]
      · exact ⟨_, a6, b6⟩
      · exact ⟨_, a1, b1⟩
      · rw [a2, b2]; exact ⟨_, rfl, h0⟩
      · rw [a3, b3]; exact ⟨_, rfl, h0⟩
      · rw [a4, b4]; exact ⟨_, rfl, h0⟩
      · rw [a5, b5]; exact ⟨_, rfl, h0⟩
      · exact ⟨_, a6, b6⟩
  obtain ⟨r, h2, h3⟩ := key
  have hl : label pco.option = none := by
    rcases ho with ho | ⟨ho, _⟩
    · unfold IsPi at ho
      simp only [List.mem_cons, List.not_mem_nil, or_false] at ho
      rcases ho with h | h | h <;> rw [h] <;> rfl
    · unfold IsLmo at ho
      simp only [List.mem_cons, List.not_mem_nil, or_false] at ho
      rcases ho with h | h | h | h | h | h | h <;> rw [h] <;> rfl
  obtain ⟨out, h4, h5⟩ := main_accepted h (P := fun out => out = .result ['0'])
    ⟨tiny, h1, r, h2, ['0'], by
      rw [I256.C38_print256_partial r (by rw [h3]; norm_num), h3]
      rfl, by rw [hl]⟩
  rw [h4, h5]

/-- Non-vacuity: `primesum 100 --time`, and `primesum --lmo5 100`. -/
theorem example_accepted : ∃ set, Accepted exampleMainEnv ["100".toList, "--time".toList] ⟨100, .pi, true⟩ set :=
  ⟨{}, (C41_starts _ _ _ _).1 rfl⟩

theorem example_accepted_lmo5 : ∃ set, Accepted exampleMainEnv ["--lmo5".toList, "100".toList] ⟨100, .lmo5, false⟩ set :=
  ⟨{}, (C41_starts _ _ _ _).1 rfl⟩

example : main exampleMainEnv ["100".toList, "--time".toList] = .ok (.result "1060".toList) := by
  obtain ⟨set, h⟩ := example_accepted
  have hs : primeSum 100 = 1060 := by unfold primeSum; decide +kernel
  have := C53_pi_partial exampleMainEnv _ _ set 100 h (by decide) (by unfold IsPi; decide) rfl (exampleMainEnv_valid h _) (Or.inl (by norm_num)) (Or.inl (by norm_num))
  rw [this, hs]
  rfl

example : main exampleMainEnv ["--lmo5".toList, "100".toList] = .ok (.result "1060".toList) := by
  obtain ⟨set, h⟩ := example_accepted_lmo5
  have hs : primeSum 100 = 1060 := by unfold primeSum; decide +kernel
  have := C53_lmo64_partial exampleMainEnv _ _ set 100 h (by decide) rfl
    ⟨Scheduler.seq_valid, Scheduler.seq_valid, Scheduler.seq_valid, ⟨exampleLib_ok, C68_accepted exampleMainEnv_toDouble h⟩⟩ (by omega)
  rw [this, hs]
  rfl

/-! ## C54: the parts of the formula -/

/-- What `main` prints for a part of the formula: after `name = ` if `--status` is given. -/
def partOutput (set : Settings) (name : String) (z : ℤ) : Output :=
  if set.print then .named name (decimal z) else .result (decimal z)

theorem part_ok {name : String} {e : Pi.Env} {x : ℕ} {f : ℕ → ℕ → ℕ → ℕ → M I256} {P : I256 → Prop} (hfp : e.FP)
    (hx1 : 1 ≤ x) (hx : x < 2 ^ 103) (hlim : x ≤ e.limit x)
    (hf : Ok (f x (e.y x) (x / e.y x) (min 6 (Nat.primeCounting (e.y x)))) P) :
    Ok (part name e x f) P := by
  obtain ⟨h1, h2, h3⟩ := Pi.y_facts hfp hx1 (by omega)
  unfold part
  rw [if_neg (by omega)]
  dsimp only
  rw [Int.toNat_natCast, Pi.getAlpha_eq, ok_bind, (Pi.limit_ok hfp hx1 (by omega)).1, ok_bind, if_neg (by omega),
    irootM_eq 3 _ _ (by norm_num), ok_bind, Pi.y_eq hfp hx1 (by omega), ok_bind]
  rw [cdiv_ok (by omega), ok_bind, PhiTiny.getC_ok, ok_bind]
  exact hf

/-- The value of a part. -/
noncomputable def partValue (o : Opt) (x y c : ℕ) : ℤ :=
  match o with
  | .P2 => P2Sum x y
  | .S1 => S1Sum x y c
  | .S2Trivial => S2TrivialSum x y c
  | .S2Easy => S2EasySum x y c
  | .S2Hard => S2HardSum x y c
  | _ => 0

theorem part_run {E : Pi.Env} {x : ℕ} {o : Opt} {threads : ℤ} {tiny : Vec PhiTiny.Tab} {name : String}
    (ht : PhiTiny.Valid tiny 6) (hv : E.Valid) (hth : 1 ≤ threads) (hx1 : 1 ≤ x)
    (hlt : x < 2 ^ 103) (hlim : x ≤ E.limit x) (hz : o = .S2Hard → x / E.y x + 129 < 2 ^ 59)
    (hw : o = .S1 → x < 52175271301331128848 ∨ NoWindow x 6) (hl : label o = some name) :
    Ok (run E tiny o x threads) (fun r => r.val = partValue o x (E.y x) (min 6 (Nat.primeCounting (E.y x)))) := by
  obtain ⟨y1, y2, y3⟩ := Pi.y_facts hv.fp hx1 (by omega)
  obtain ⟨c1, c2, c3⟩ := c_cases (E.y x)
  have hzl := Pi.z_le_limit hv.fp hx1 (by omega) hlim
  have hy62 : E.y x < 2 ^ 62 := by nlinarith
  have hy63 : E.y x < 2 ^ 63 := by omega
  cases o <;> (try (simp [label] at hl; done))
  case P2 =>
    exact part_ok (name := "P2") (f := fun x y _ _ => P2.p2 tiny E.schedP2 E.timeP2 threads x y) hv.fp hx1 hlt hlim
      (P2_val ht hv.schedP2 E.timeP2 hth (show x < 2 ^ 124 by omega) hy62 (by rw [Nat.max_eq_left y1]; omega))
  case S1 =>
    refine part_ok (name := "S1") (f := fun x y _ c => PS.s1 E.schedS1 x y c) hv.fp hx1 hlt hlim ?_
    rcases Nat.lt_or_ge x (2 ^ 63) with h63 | h63
    · exact C12_S1_64_fits_partial _ hv.schedS1 x _ _ h63 y1 (by omega) (prm_small (by omega)) c2
    · have hw' : NoWindow x 6 := by
        rcases hw rfl with h | h
        · exact noWindow_of_lt 6 (by unfold badK; omega)
        · exact h
      exact C12_S1_128_partial _ hv.schedS1 x _ _ (by omega) y1 (by nlinarith) (Or.inl h63) (prm_small (by omega))
        (hw'.anti (by omega))
  case S2Easy =>
    exact part_ok (name := "S2_easy") (f := fun x y z c => Pi.s2Easy E x y z c) hv.fp hx1 hlt hlim
      (Ok.ite (fun _ => C14_S2_easy_libdivide _ hv.schedEasy x _ _ (by omega) y1 hy63 y3)
      (fun _ => C14_S2_easy _ hv.schedEasy x _ _ (by omega) y1 hy63 y3))
  case S2Hard =>
    exact part_ok (name := "S2_hard") (f := fun x y z c => S2Hard.s2Hard E.hard x y z c threads) hv.fp hx1 hlt hlim
      (C15_S2_hard_partial E.hard x _ _ threads hv.schedHard hv.merge y1 y2 y3 c1 (by omega) (by omega) (hz rfl))
  case S2Trivial =>
    exact part_ok (name := "S2_trivial") (f := fun x y z c => S2Trivial.s2Trivial E.schedTrivial x y z c threads)
      hv.fp hx1 hlt hlim (C13_S2_trivial _ hv.schedTrivial x _ _ threads y1 (by nlinarith) (by omega) c3 (by omega))

theorem part_ne {x y c : ℕ} (o : Opt) (hx : x < 2 ^ 103) (hyx : y * y ≤ x) : partValue o x y c ≠ -2 ^ 255 := by
  unfold partValue
  split
  · omega
  · have h1 := abs_S1Sum_le x y c
    have hy : y < 2 ^ 63 := by nlinarith
    have h2 : Nat.log 2 y ≤ 63 := by
      by_cases h0 : y = 0
      · rw [h0]; simp
      · exact (Nat.log_lt_of_lt_pow h0 hy).le
    have h3 : x * (x * (Nat.log 2 y + 1) + y) ≤ 2 ^ 103 * (2 ^ 103 * 64 + 2 ^ 63) := by gcongr; omega
    have h4 : |S1Sum x y c| * 2 ≤ ((2 ^ 103 * (2 ^ 103 * 64 + 2 ^ 63) : ℕ) : ℤ) := h1.trans (by exact_mod_cast h3)
    intro hc
    rw [hc] at h4
    norm_num at h4
  · omega
  · omega
  · have h1 := S2Hard.abs_S2HardSum_lt (c := c) hx hyx
    intro hc
    rw [hc] at h1
    norm_num at h1
  · norm_num

/-- `--P2`, `--S1`, `--S2_trivial`, `--S2_easy`, `--S2_hard` print the corresponding part of the formula for the `y`
and `c` of the run.  Full claim: for every `x` up to the limit; it is false for `S1` (C12, C17).  Missing for the
other parts: `x ≥ 2^103`, and for `S2_hard` `x / y ≥ 2^59`. -/
theorem C54_part_partial (e : Env) (args : List (List Char)) (pco : Options) (set : Settings) (x : ℕ) (name : String)
    (h : Accepted e args pco set) (homp : 1 ≤ e.ompMax) (hl : label pco.option = some name) (hx : pco.x = x)
    (hv : (algEnv e set pco.option).Valid) (hx1 : 1 ≤ x)
    (hlt : x < 2 ^ 103) (hlim : x ≤ (algEnv e set pco.option).limit x)
    (hz : pco.option = .S2Hard → x / (algEnv e set pco.option).y x + 129 < 2 ^ 59)
    (hw : pco.option = .S1 → x < 52175271301331128848 ∨ NoWindow x 6) :
    main e args = .ok (partOutput set name (partValue pco.option x ((algEnv e set pco.option).y x)
      (min 6 (Nat.primeCounting ((algEnv e set pco.option).y x))))) := by
  obtain ⟨tiny, h1, ht⟩ := PhiTiny.build_ok
  have hth := threads_pos h homp
  obtain ⟨y1, y2, y3⟩ := Pi.y_facts hv.fp hx1 (by omega)
  have key : Ok (run (algEnv e set pco.option) tiny pco.option pco.x (getNumThreads e.ompMax set.threads))
      (fun r => r.val = partValue pco.option x ((algEnv e set pco.option).y x)
      (min 6 (Nat.primeCounting ((algEnv e set pco.option).y x))) ) := by
    rw [hx]
    generalize getNumThreads e.ompMax set.threads = threads at *
    generalize hE : algEnv e set pco.option = E at *
    clear hE
    generalize pco.option = o at *
    exact part_run ht hv hth hx1 hlt hlim hz hw hl
  obtain ⟨r, h2, h3⟩ := key
  have hne : r.val ≠ -2 ^ 255 := by
    rw [h3]
    exact part_ne _ (by omega) y2
  obtain ⟨out, h4, h5⟩ := main_accepted h (P := fun out => out = partOutput set name (partValue pco.option x
      ((algEnv e set pco.option).y x) (min 6 (Nat.primeCounting ((algEnv e set pco.option).y x)))))
    ⟨tiny, h1, r, h2, _, I256.C38_print256_partial r hne, by
      rw [hl]
      dsimp only
      unfold partOutput
      rw [h3]
      by_cases hp : set.print
      · rw [if_pos ⟨hp, by omega⟩, if_pos hp]
      · rw [if_neg (fun hc => hp hc.1), if_neg hp]⟩
  rw [h4, h5]

/-- Non-vacuity: `primesum --P2 100 -s`. -/
example : ∃ z, main exampleMainEnv ["--P2".toList, "100".toList, "-s".toList] = .ok (.named "P2" (decimal z)) := by
  have h : Accepted exampleMainEnv ["--P2".toList, "100".toList, "-s".toList] ⟨100, .P2, true⟩ { print := true } :=
    (C41_starts _ _ _ _).1 rfl
  have := C54_part_partial exampleMainEnv _ _ _ 100 "P2" h (by decide) rfl rfl (exampleMainEnv_valid h _) (by norm_num) (by norm_num)
    (Pi.le_limit (exampleMainEnv_valid h _).fp (by norm_num) (by norm_num)) (fun h => by simp at h) (fun h => by simp at h)
  exact ⟨_, this⟩

/-- The parts add up to the result: `pi(x) = S1 + S2_trivial + S2_easy + S2_hard + pi(y) - 1 - P2`. -/
theorem C54_formula (x y c : ℕ) (hx : 1 ≤ x) (hy : 1 ≤ y) (hyx : y * y ≤ x) (hxy : x < (y + 1) ^ 3)
    (hc : c ≤ Nat.primeCounting y) :
    (primeSum x : ℤ) = partValue .S1 x y c + (partValue .S2Trivial x y c + partValue .S2Easy x y c +
      partValue .S2Hard x y c) + primeSum y - 1 - partValue .P2 x y c := by
  have h1 := primeSum_eq x y c hx hy (by nlinarith) hxy hc
  have h2 := C15_all_leaves x y c hy (by rw [Nat.le_div_iff_mul_le (by omega)]; exact hyx)
  unfold partValue
  dsimp only
  rw [h1, h2]

/-! ## C55: `pi(string)` -/

/-- The C++ function `pi(const string&, int)` returns the sum of the primes up to the value of the expression, in
decimal.  Full claim: for every value up to the limit (C01). -/
theorem C55_pi_string_partial (e : Pi.Env) (s : String) (t : Expr) (x : ℕ) (threads : ℤ) (hp : Parses s t)
    (ht : t.eval = .ok (x : ℤ)) (hv : e.Valid) (hth : 1 ≤ threads)
    (hb : e.Reach x) (hw : x < 52175271301331128848 ∨ NoWindow x 6) :
    (do let tiny ← PhiTiny.build; piString e tiny s threads) = .ok (decimal (primeSum x)) := by
  obtain ⟨tiny, h1, _⟩ := PhiTiny.build_ok
  obtain ⟨r, h2, h3⟩ := C01_pi_reach_partial e x threads hv hth hb hw
  change (do let tiny ← PhiTiny.build; Pi.pi e tiny x threads) = _ at h2
  rw [h1, ok_bind] at h2 ⊢
  unfold piString
  rw [Calc.C39_eval hp, ht, ok_bind, h2, ok_bind]
  have hlt := hb.lt
  exact decimal_fits (by omega) h3

/-- Non-vacuity: `pi("2 * (3 + 47)")`. -/
example : (do let tiny ← PhiTiny.build; piString (exampleEnv 3 true) tiny "2 * (3 + 47)" 4) = .ok "1060".toList := by
  have hs : primeSum 100 = 1060 := by unfold primeSum; decide +kernel
  obtain ⟨t, h1, h2⟩ := Calc.C40_sound (str := "2 * (3 + 47)") (v := (100 : ℕ)) (by decide +kernel)
  rw [C55_pi_string_partial _ _ t 100 4 h1 h2 (exampleEnv_valid 3 true) (by norm_num) (Or.inl (by norm_num)) (Or.inl (by norm_num)), hs]
  rfl

/-- A string that is no expression, or whose value is above the limit, does not give a result. -/
theorem C55_rejects (e : Pi.Env) (s : String) (threads : ℤ) (tiny : Vec PhiTiny.Tab) (h : ∀ t, ¬ Parses s t) :
    ∃ err, piString e tiny s threads = .error err ∧ Calc.Rejected err := by
  obtain ⟨err, h1, h2⟩ := Calc.C40_reject h
  refine ⟨err, ?_, h2⟩
  unfold piString
  rw [h1]
  rfl

end Main
end PS
