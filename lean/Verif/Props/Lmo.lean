import Verif.Proof.Lmo1

/-!
# Properties C05–C10 (and C04 for these functions): the algorithms of src/lmo

`Lmo.EnvValid e` says that the schedules execute every iteration once and that rounding is monotone and exact
for the integers up to `2^53`.  `main` passes a 64-bit `x` to these functions (src/app/main.cpp:166-179), so
`x < 2^63` is their range.
-/

namespace PS
open LawfulRes
local notation "π" => Nat.primeCounting

namespace Lmo

/-- The programs: build the tables of `PhiTiny`, then call the function. -/
abbrev run1 (e : Pi.Env) (x : ℤ) : M I256 := do let tiny ← PhiTiny.build; piLmo1 e tiny x
abbrev run2 (e : Pi.Env) (x : ℤ) : M ℤ := do let tiny ← PhiTiny.build; piLmo2 e tiny x
abbrev run3 (e : Pi.Env) (x : ℤ) : M ℤ := do let tiny ← PhiTiny.build; piLmo3 e tiny x
abbrev run4 (e : Pi.Env) (x : ℤ) : M ℤ := do let tiny ← PhiTiny.build; piLmo4 e tiny x
abbrev run5 (e : Pi.Env) (x : ℤ) : M ℤ := do let tiny ← PhiTiny.build; piLmo5 e tiny x
abbrev runParallel1 (e : Pi.Env) (x : ℤ) (threads : ℤ) : M I256 := do
  let tiny ← PhiTiny.build; piLmoParallel1 e tiny x threads

end Lmo
open Lmo

/-- All functions return 0 if `x < 2`. -/
theorem C04_lmo_small (e : Pi.Env) (x : ℤ) (threads : ℤ) (hx : x < 2) :
    Ok (run1 e x) (fun r => r.val = 0) ∧ Ok (run2 e x) (fun r => r = 0) ∧ Ok (run3 e x) (fun r => r = 0) ∧
      Ok (run4 e x) (fun r => r = 0) ∧ Ok (run5 e x) (fun r => r = 0) ∧
      Ok (runParallel1 e x threads) (fun r => r.val = 0) := by
  have h0 : (I256.ofInt 0).val = 0 := by decide
  refine ⟨?_, ?_, ?_, ?_, ?_, ?_⟩
  · refine Ok.bind PhiTiny.build_ok (fun tiny _ => ?_)
    unfold piLmo1
    rw [if_pos hx]
    exact Ok.pure h0
  · refine Ok.bind PhiTiny.build_ok (fun tiny _ => ?_)
    unfold piLmo2
    rw [piLmo_small _ _ _ _ hx, toI64_small]
    exact Ok.ok rfl
  · refine Ok.bind PhiTiny.build_ok (fun tiny _ => ?_)
    unfold piLmo3
    rw [piLmo_small _ _ _ _ hx, toI64_small]
    exact Ok.ok rfl
  · refine Ok.bind PhiTiny.build_ok (fun tiny _ => ?_)
    unfold piLmo4
    rw [piLmo_small _ _ _ _ hx, toI64_small]
    exact Ok.ok rfl
  · refine Ok.bind PhiTiny.build_ok (fun tiny _ => ?_)
    unfold piLmo5
    rw [piLmo_small _ _ _ _ hx, toI64_small]
    exact Ok.ok rfl
  · refine Ok.bind PhiTiny.build_ok (fun tiny _ => ?_)
    unfold piLmoParallel1
    rw [piLmo_small _ _ _ _ hx]
    exact Ok.ok h0

example : (-5 : ℤ) < 2 := by norm_num

/-! ## C05 -/

/-- `pi_lmo1(x)` is the sum of the primes `≤ x`, for every `x` below about `5.2 * 10^19`: this covers every
64-bit `x`. -/
theorem C05_pi_lmo1 (e : Pi.Env) (x : ℕ) (hs : e.schedP2.Valid) (hx : x < 52175271301331128848) :
    Ok (run1 e x) (fun r => r.val = primeSum x) := by
  rcases Nat.lt_or_ge x 2 with h2 | h2
  · rw [primeSum_lt_two h2]
    exact (C04_lmo_small e x 1 (by omega)).1
  refine Ok.bind PhiTiny.build_ok (fun tiny ht => ?_)
  have hb : x < 2 * badK := by unfold badK; omega
  refine (piLmo1_off (E := 0) hs h2 (by omega) ?_ le_rfl (by norm_num) ht).mono (fun r hr => ?_)
  · refine (phiSumM_ok x _ (by omega) (prm_small (min_le_left _ _)) (noWindow_of_lt _ hb)).mono (fun r hr => ?_)
    rw [add_zero]
    exact rep_of_val hr
  · rw [add_zero] at hr
    exact rep_val (R := I256) r _ hr (primeSum_inRange (by omega))

/-- At `x = 52175271301331128848` (beyond 64 bits) the result is `2^128` too large, because of the multiplication
of `int256_t` (C34). -/
theorem C05_counterexample (e : Pi.Env) (hs : e.schedP2.Valid) :
    Ok (run1 e 52175271301331128848) (fun r => r.val = primeSum 52175271301331128848 + 2 ^ 128) := by
  refine Ok.bind PhiTiny.build_ok (fun tiny ht => ?_)
  have hc : min 6 (π (iroot 3 52175271301331128848)) = 6 := by
    have h13 : 13 ≤ iroot 3 52175271301331128848 := le_iroot (by norm_num) (by norm_num)
    have : π 13 ≤ π (iroot 3 52175271301331128848) := Nat.monotone_primeCounting h13
    have h8 : π 13 = 6 := by decide +kernel
    omega
  have h := piLmo1_off (e := e) (E := 2 ^ 128) (x := 52175271301331128848) hs (by norm_num)
    (by unfold badK; norm_num) (by rw [hc]; exact phiSumM_bad.mono (fun r hr => rep_of_val hr)) (by norm_num) le_rfl ht
  refine h.mono (fun r hr => ?_)
  refine rep_val (R := I256) r _ hr (show I256.InRange _ from ?_)
  have h1 := primeSum_le_sq 52175271301331128848
  constructor <;> omega

theorem exampleEnv_lmo (a : ℚ) (lib : Bool) : Lmo.EnvValid (exampleEnv a lib) where
  schedP2 := Scheduler.seq_valid
  schedS1 := Scheduler.seq_valid
  schedHard := Scheduler.seq_valid
  fp := exampleEnv_fp a lib

/-- Non-vacuity: the hypotheses hold for the example environment, and the result for `x = 100` is 1060. -/
example : Ok (run1 (exampleEnv 1 true) (100 : ℕ)) (fun r => r.val = 1060) := by
  have h : primeSum 100 = 1060 := by unfold primeSum; decide +kernel
  have := C05_pi_lmo1 (exampleEnv 1 true) 100 Scheduler.seq_valid (by norm_num)
  rwa [h] at this

/-! ## C06–C09

`S2_result` of `pi_lmo2`, `pi_lmo3` and `pi_lmo5` is an `int64_t`.  The theorems `C06_pi_lmo2_partial`,
`C07_pi_lmo3_partial` and `C09_pi_lmo5_partial` are for arithmetic that wraps around on overflow; the theorems
`…_no_overflow` show that there is no overflow if `x < 2^29`.  Missing: whether intermediate sums stay below `2^63`
for the other `x` whose sum of primes fits in 63 bits.  `pi_lmo4` uses `int128_t`, there `C08_no_overflow` covers all
of them. -/

/-- The sum of the primes fits in 63 bits only if `x < 2^38`. -/
theorem C06_domain (x : ℕ) (h : primeSum x < 2 ^ 63) : x < 2 ^ 38 := lt_of_primeSum_lt h

example : primeSum 100 < 2 ^ 63 := by
  have := primeSum_le_sq 100
  omega

/-- `pi_lmo2(x)` is the sum of the primes `≤ x` if this sum fits, whatever the tuning factor. -/
theorem C06_pi_lmo2_partial (e : Pi.Env) (x : ℕ) (hv : Lmo.EnvValid e) (hfit : primeSum x < 2 ^ 63) :
    Ok (run2 e x) (fun r => r = primeSum x) := by
  rcases Nat.lt_or_ge x 2 with h2 | h2
  · rw [primeSum_lt_two h2]
    exact (C04_lmo_small e x 1 (by omega)).2.1
  have hx := lt_of_primeSum_lt hfit
  refine Ok.bind PhiTiny.build_ok (fun tiny ht => ?_)
  obtain ⟨h1, hyx, h3⟩ := Pi.yL_facts hv.fp (by omega : 1 ≤ x) (by omega)
  obtain ⟨c1, c2, c3⟩ := c_cases (e.yL x)
  refine toI64_ok (piLmo_off (P := fun E => (2 ^ 64 : ℤ) ∣ E) hv h2 (by omega) (y_lt_31 hyx (by omega)) le_rfl ht (fun primes lpf mu hT hP => ?_)) hfit
  refine Ok.bind (s2Lmo2_ok (S := AccSpec.w64) h1 hyx (by omega) (y_lt_31 hyx (by omega)) ((Nat.div_le_self _ _).trans_lt (by omega)) (limit_sq h1 hx h3) (by omega) (by omega) (w64_hyp _ _ _) hT hP) (fun r hr => Ok.pure ?_)
  exact rep_w64 hr

/-- The `int64_t` arithmetic of `S2` in pi_lmo2.cpp does not overflow and gives the sum over the special leaves. -/
theorem C06_no_overflow (x y c : ℕ) (primes lpf : Vec ℕ) (mu : Vec ℤ) (hy : 1 ≤ y) (hyx : y * y ≤ x) (hx : x < 2 ^ 29)
    (hc : 1 ≤ c ∨ π y ≤ c) (hcy : c ≤ π y) (hT : Tab y mu lpf) (hP : PrimeTable primes (π y)) :
    Ok (s2Lmo2 (CInt 64) 63 x y c primes lpf mu) (fun r => r.val = some (S2Sum x y c)) :=
  (s2Lmo2_ok (S := AccSpec.checked 64) hy hyx (by omega) (y_lt_31 hyx (by omega)) ((Nat.div_le_self _ _).trans_lt (by omega)) (limit_sq' hx) hc hcy (checked64_hyp hy hyx hx) hT hP).mono (fun r hr => by
    change r = ⟨some _⟩ at hr
    rw [hr])

/-- `pi_lmo3(x)` is the sum of the primes `≤ x` if this sum fits, whatever the tuning factor. -/
theorem C07_pi_lmo3_partial (e : Pi.Env) (x : ℕ) (hv : Lmo.EnvValid e) (hfit : primeSum x < 2 ^ 63) :
    Ok (run3 e x) (fun r => r = primeSum x) := by
  rcases Nat.lt_or_ge x 2 with h2 | h2
  · rw [primeSum_lt_two h2]
    exact (C04_lmo_small e x 1 (by omega)).2.2.1
  have hx := lt_of_primeSum_lt hfit
  refine Ok.bind PhiTiny.build_ok (fun tiny ht => ?_)
  obtain ⟨h1, hyx, h3⟩ := Pi.yL_facts hv.fp (by omega : 1 ≤ x) (by omega)
  obtain ⟨c1, c2, c3⟩ := c_cases (e.yL x)
  refine toI64_ok (piLmo_off (P := fun E => (2 ^ 64 : ℤ) ∣ E) hv h2 (by omega) (y_lt_31 hyx (by omega)) le_rfl ht (fun primes lpf mu hT hP => ?_)) hfit
  refine Ok.bind (s2LmoC_ok (tree := false) (S := AccSpec.w64) h1 hyx (by omega) (y_lt_31 hyx (by omega)) ((Nat.div_le_self _ _).trans_lt (by omega)) (limit_sq h1 hx h3) (by omega) (by omega) (w64_hyp _ _ _) hT hP)
    (fun r hr => Ok.pure ?_)
  exact rep_w64 hr

/-- The `int64_t` arithmetic of `S2` in pi_lmo3.cpp does not overflow and gives the sum over the special leaves. -/
theorem C07_no_overflow (x y c : ℕ) (primes lpf : Vec ℕ) (mu : Vec ℤ) (hy : 1 ≤ y) (hyx : y * y ≤ x) (hx : x < 2 ^ 29)
    (hc : 1 ≤ c ∨ π y ≤ c) (hcy : c ≤ π y) (hT : Tab y mu lpf) (hP : PrimeTable primes (π y)) :
    Ok (s2LmoC (CInt 64) false 63 x y c primes lpf mu) (fun r => r.val = some (S2Sum x y c)) :=
  (s2LmoC_ok (tree := false) (S := AccSpec.checked 64) hy hyx (by omega) (y_lt_31 hyx (by omega)) ((Nat.div_le_self _ _).trans_lt (by omega)) (limit_sq' hx) hc hcy (checked64_hyp hy hyx hx) hT hP).mono (fun r hr => by
    change r = ⟨some _⟩ at hr
    rw [hr])

/-- `pi_lmo4(x)` is the sum of the primes `≤ x` if this sum fits, whatever the tuning factor. -/
theorem C08_pi_lmo4 (e : Pi.Env) (x : ℕ) (hv : Lmo.EnvValid e) (hfit : primeSum x < 2 ^ 63) :
    Ok (run4 e x) (fun r => r = primeSum x) := by
  rcases Nat.lt_or_ge x 2 with h2 | h2
  · rw [primeSum_lt_two h2]
    exact (C04_lmo_small e x 1 (by omega)).2.2.2.1
  have hx := lt_of_primeSum_lt hfit
  refine Ok.bind PhiTiny.build_ok (fun tiny ht => ?_)
  obtain ⟨h1, hyx, h3⟩ := Pi.yL_facts hv.fp (by omega : 1 ≤ x) (by omega)
  obtain ⟨c1, c2, c3⟩ := c_cases (e.yL x)
  refine toI64_ok (piLmo_off (P := fun E => (2 ^ 64 : ℤ) ∣ E) hv h2 (by omega) (y_lt_31 hyx (by omega)) le_rfl ht (fun primes lpf mu hT hP => ?_)) hfit
  refine Ok.bind (s2LmoC_ok (tree := true) (S := AccSpec.w128) h1 hyx (by omega) (y_lt_31 hyx (by omega)) ((Nat.div_le_self _ _).trans_lt (by omega))
    ((limit_sq h1 hx h3).trans (by decide)) (by omega) (by omega) (w128_hyp _ _ _) hT hP)
    (fun r hr => Ok.pure ?_)
  exact rep_w128 hr

/-- The `int128_t` arithmetic of `S2` in pi_lmo4.cpp does not overflow and gives the sum over the special leaves,
for every `x` whose sum of primes fits in 63 bits. -/
theorem C08_no_overflow (e : Pi.Env) (x : ℕ) (primes lpf : Vec ℕ) (mu : Vec ℤ) (hv : Lmo.EnvValid e) (hx1 : 1 ≤ x)
    (hfit : primeSum x < 2 ^ 63) (hT : Tab (e.yL x) mu lpf) (hP : PrimeTable primes (π (e.yL x))) :
    Ok (s2LmoC (CInt 128) true 127 x (e.yL x) (min 6 (π (e.yL x))) primes lpf mu)
      (fun r => r.val = some (S2Sum x (e.yL x) (min 6 (π (e.yL x))))) := by
  have hx := lt_of_primeSum_lt hfit
  obtain ⟨h1, hyx, h3⟩ := Pi.yL_facts hv.fp hx1 (by omega)
  obtain ⟨c1, c2, c3⟩ := c_cases (e.yL x)
  refine (s2LmoC_ok (tree := true) (S := AccSpec.checked 128) h1 hyx (by omega) (y_lt_31 hyx (by omega)) ((Nat.div_le_self _ _).trans_lt (by omega))
    ((limit_sq h1 hx h3).trans (by decide)) (by omega) (by omega)
    (checked128_hyp hyx c1 (by omega)) hT hP).mono (fun r hr => ?_)
  change r = ⟨some _⟩ at hr
  rw [hr]

/-- `pi_lmo5(x)` is the sum of the primes `≤ x` if this sum fits, whatever the tuning factor. -/
theorem C09_pi_lmo5_partial (e : Pi.Env) (x : ℕ) (hv : Lmo.EnvValid e) (hfit : primeSum x < 2 ^ 63) :
    Ok (run5 e x) (fun r => r = primeSum x) := by
  rcases Nat.lt_or_ge x 2 with h2 | h2
  · rw [primeSum_lt_two h2]
    exact (C04_lmo_small e x 1 (by omega)).2.2.2.2.1
  have hx := lt_of_primeSum_lt hfit
  refine Ok.bind PhiTiny.build_ok (fun tiny ht => ?_)
  obtain ⟨h1, hyx, h3⟩ := Pi.yL_facts hv.fp (by omega : 1 ≤ x) (by omega)
  obtain ⟨c1, c2, c3⟩ := c_cases (e.yL x)
  refine toI64_ok (piLmo_off (P := fun E => (2 ^ 64 : ℤ) ∣ E) hv h2 (by omega) (y_lt_31 hyx (by omega)) le_rfl ht (fun primes lpf mu hT hP => ?_)) hfit
  refine Ok.bind (s2Lmo5_ok (S := AccSpec.w64) h1 (y_lt_31 hyx (by omega)) hyx (by omega) ((Nat.div_le_self _ _).trans_lt (by omega)) (limit_sq h1 hx h3) (by omega) (by omega) (by omega) (w64_hyp _ _ _) hT hP)
    (fun r hr => Ok.pure ?_)
  exact rep_w64 hr

/-- The `int64_t` arithmetic of `S2` in pi_lmo5.cpp does not overflow and gives the sum over the special leaves. -/
theorem C09_no_overflow (x y c : ℕ) (primes lpf : Vec ℕ) (mu : Vec ℤ) (hy : 1 ≤ y) (hyx : y * y ≤ x) (hx : x < 2 ^ 29)
    (hc : 4 ≤ c ∨ π y ≤ c) (hcy : c ≤ π y) (hc10 : c < 10) (hT : Tab y mu lpf) (hP : PrimeTable primes (π y)) :
    Ok (s2Lmo5 (CInt 64) 63 x y c primes lpf mu) (fun r => r.val = some (S2Sum x y c)) :=
  (s2Lmo5_ok (S := AccSpec.checked 64) hy (y_lt_31 hyx (by omega)) hyx (by omega) ((Nat.div_le_self _ _).trans_lt (by omega)) (limit_sq' hx) hc hcy hc10 (checked64_hyp hy hyx hx) hT hP).mono (fun r hr => by
    change r = ⟨some _⟩ at hr
    rw [hr])

/-- Non-vacuity: an environment with tuning factor 2, and the results for `x = 100`. -/
example : Ok (run2 (exampleEnv 2 true) (100 : ℕ)) (fun r => r = (1060 : ℕ)) ∧
    Ok (run3 (exampleEnv 2 true) (100 : ℕ)) (fun r => r = (1060 : ℕ)) ∧
    Ok (run4 (exampleEnv 2 true) (100 : ℕ)) (fun r => r = (1060 : ℕ)) ∧
    Ok (run5 (exampleEnv 2 true) (100 : ℕ)) (fun r => r = (1060 : ℕ)) := by
  have h : primeSum 100 = 1060 := by unfold primeSum; decide +kernel
  have hv := exampleEnv_lmo 2 true
  rw [← h]
  exact ⟨C06_pi_lmo2_partial _ 100 hv (by omega), C07_pi_lmo3_partial _ 100 hv (by omega),
    C08_pi_lmo4 _ 100 hv (by omega), C09_pi_lmo5_partial _ 100 hv (by omega)⟩

/-- Non-vacuity of the hypotheses on the tables. -/
example : ∃ primes lpf mu, Tab 100 mu lpf ∧ PrimeTable primes (π 100) := by
  obtain ⟨mu, -, hmu⟩ := generateMoebius_ok (show 100 < 2 ^ 31 by norm_num)
  obtain ⟨lpf, -, hlpf⟩ := generateLpf_ok (show 100 < 2 ^ 31 by norm_num)
  exact ⟨_, lpf, mu, tables_ok 100 hmu hlpf, generatePrimes_table 100⟩

/-! ## C10 -/

/-- `pi_lmo_parallel1(x, threads)` is the sum of the primes `≤ x`, whatever the number of threads, the schedules,
the timings of the load balancer and the tuning factor.

Full claim: for every 64-bit `x`.  The tables hold `int32_t`, so that `y < 2^31` is needed: this is the case for every
tuning factor if `x < 2^62` (`C10_below`), and for `x < 2^63` if the tuning factor is not close to its maximum;
`C10_limit` shows that the claim is false without it. -/
theorem C10_pi_lmo_parallel1_partial (e : Pi.Env) (x : ℕ) (threads : ℤ) (hv : Lmo.EnvValid e) (hth : 1 ≤ threads) (hx : x < 2 ^ 63)
    (hy31 : e.yL x < 2 ^ 31) :
    Ok (runParallel1 e x threads) (fun r => r.val = primeSum x) := by
  rcases Nat.lt_or_ge x 2 with h2 | h2
  · rw [primeSum_lt_two h2]
    exact (C04_lmo_small e x threads (by omega)).2.2.2.2.2
  refine Ok.bind PhiTiny.build_ok (fun tiny ht => ?_)
  obtain ⟨h1, hyx, h3⟩ := Pi.yL_facts hv.fp (by omega : 1 ≤ x) (by omega)
  obtain ⟨c1, c2, c3⟩ := c_cases (e.yL x)
  have hz := z_bound58 (by omega) (by omega) (Pi.yL_range hv.fp (by omega : 1 ≤ x) (by omega)).1
  refine (piLmo_off (P := fun E => E = 0) hv h2 hx hy31 hth ht (fun primes lpf mu hT hP => ?_)).mono (fun r hr => ?_)
  · refine (s2Par_ok (e := e.hard) (threads := threads) hv.schedHard h1 hyx (by omega) (by omega) hy31
      hx (by omega) hT hP).mono (fun r hr => ⟨0, rfl, by rwa [add_zero]⟩)
  · obtain ⟨E, rfl, hr⟩ := hr
    rw [add_zero] at hr
    exact rep_val (R := I256) r _ hr (primeSum_inRange (by omega))

/-- Every tuning factor is allowed if `x < 2^62`. -/
theorem C10_below (e : Pi.Env) (x : ℕ) (threads : ℤ) (hv : Lmo.EnvValid e) (hth : 1 ≤ threads) (hx : x < 2 ^ 62) :
    Ok (runParallel1 e x threads) (fun r => r.val = primeSum x) := by
  rcases Nat.eq_zero_or_pos x with rfl | hx1
  · rw [primeSum_lt_two (by norm_num)]
    exact (C04_lmo_small e (0 : ℕ) threads (by norm_num)).2.2.2.2.2
  · obtain ⟨h1, hyx, h3⟩ := Pi.yL_facts hv.fp (by omega : 1 ≤ x) (by omega)
    exact C10_pi_lmo_parallel1_partial e x threads hv hth (by omega) (y_lt_31 hyx hx)

/-- With the default tuning factor (`--alpha` not given) the claim holds for every 64-bit `x`. -/
theorem C10_default (e : Pi.Env) (x : ℕ) (threads : ℤ) (hv : Lmo.EnvValid e) (hd : e.alpha.lt (.fin 1) = true) (hth : 1 ≤ threads)
    (hx : x < 2 ^ 63) : Ok (runParallel1 e x threads) (fun r => r.val = primeSum x) := by
  rcases Nat.eq_zero_or_pos x with rfl | hx1
  · rw [primeSum_lt_two (by norm_num)]
    exact (C04_lmo_small e (0 : ℕ) threads (by norm_num)).2.2.2.2.2
  · exact C10_pi_lmo_parallel1_partial e x threads hv hth hx (Pi.yL_default hv.fp hd hx1 hx)

/-- Non-vacuity: the greatest 64-bit `x`. -/
example : Ok (runParallel1 (exampleEnv (-1) true) (9223372036854775807 : ℕ) 4) (fun r => r.val = primeSum 9223372036854775807) :=
  C10_default _ _ 4 (exampleEnv_lmo (-1) true) (by decide +kernel) (by norm_num) (by norm_num)

/-- `y ≥ 2147483659` (the first prime that does not fit `int32_t`): the table of primes cannot be represented.  With the
maximal tuning factor this happens for `x ≥ 2^62.1`. -/
theorem C10_limit (e : Pi.Env) (x : ℕ) (threads : ℤ) (hf : e.FP) (hx : 2 ≤ x) (hx2 : x < 2 ^ 63)
    (hy : 2147483659 ≤ e.yL x) :
    Fails (runParallel1 e x threads) := by
  refine Fails.bind (fun tiny _ => ?_)
  unfold piLmoParallel1 piLmo
  rw [if_neg (by omega)]
  dsimp only
  rw [Int.toNat_natCast, Pi.getAlphaLmo_eq, ok_bind, irootM_eq 3 _ _ (by norm_num), ok_bind,
    Pi.yL_eq hf (by omega) (by omega), ok_bind]
  refine Fails.bind (fun c _ => Fails.bind (fun p2 _ => Fails.bind (fun mu _ => Fails.bind (fun lpf _ => ?_))))
  rw [generatePrimesT_error prime_2147483659 (by norm_num) hy, error_bind]
  exact Fails.error _

/-- Such an `x` exists: with `--alpha=1448` the largest 64-bit `x` gives `y = 3036674648`. -/
theorem y_1448 (x : ℕ) (h : x = 9223372036854775807) : 2147483659 ≤ (exampleEnv 1448 true).yL x := by
  have h3 : 2097151 ≤ iroot 3 x := le_iroot (by norm_num) (by rw [h]; norm_num)
  have h6 : 1448 ≤ iroot 6 x := le_iroot (by norm_num) (by rw [h]; norm_num)
  have h6' : (1448 : ℚ) ≤ (iroot 6 x : ℕ) := by exact_mod_cast h6
  have h3' : (2097151 : ℚ) ≤ (iroot 3 x : ℕ) := by exact_mod_cast h3
  have ha : (exampleEnv 1448 true).alphaL x = .fin 1448 := Pi.clamp_set (by norm_num) h6' (by omega)
  unfold Pi.Env.yL
  rw [ha]
  show 2147483659 ≤ Pi.yq x 1448
  have hb := binary64_mono (show ((2147483659 : ℕ) : ℚ) ≤ (iroot 3 x : ℕ) * 1448 by push_cast; linarith)
  rw [binary64_nat _ (by norm_num)] at hb
  have : ((2147483659 : ℕ) : ℤ) ≤ ⌊binary64 ((iroot 3 x : ℕ) * 1448)⌋ := by
    rw [Int.le_floor]
    exact_mod_cast hb
  unfold Pi.yq
  omega

example : Fails (runParallel1 (exampleEnv 1448 true) (9223372036854775807 : ℕ) 1) :=
  C10_limit _ _ _ (exampleEnv_fp _ _) (by norm_num) (by norm_num) (y_1448 _ rfl)

example : Ok (runParallel1 (exampleEnv 3 true) (100 : ℕ) 4) (fun r => r.val = (1060 : ℕ)) := by
  have h : primeSum 100 = 1060 := by unfold primeSum; decide +kernel
  rw [← h]
  exact C10_below _ 100 4 (exampleEnv_lmo 3 true) (by norm_num) (by norm_num)

end PS
