import Verif.Proof.Pi
import Verif.Proof.DefaultLimit
import Verif.Proof.Ieee
import Verif.Proof.S1Det

/-!
# Properties C01–C04 and C43: `pi(x)`, the sum of the primes `≤ x`

`Pi.Env` is what a run of `pi` depends on besides `x` and the number of threads: the tuning factor, the
schedules, the timings, the results of `log` and `pow`.  `e.Valid` says that schedules execute every iteration
once, that `log` and `pow` of the C library are accurate (`Pi.Lib.OK`) and that the tuning factor is not NaN.  `e.y x` is
the `y` of the run, `e.limit x` is the largest `x` that it accepts.
-/

namespace PS
open LawfulRes
local notation "π" => Nat.primeCounting

/-- The program: build the tables of `PhiTiny`, then call `pi(x, threads)`. -/
abbrev runPi (e : Pi.Env) (x : ℤ) (threads : ℤ) : M I256 := do
  let tiny ← PhiTiny.build
  Pi.pi e tiny x threads

/-- The tuning factor of a run. -/
abbrev Pi.Env.alphaOf (e : Pi.Env) (x : ℕ) : ℚ := Pi.toQ (e.alphaD x)

theorem primeSum_inRange {x : ℕ} (hx : x < 2 ^ 124) : I256.InRange (primeSum x) := by
  have h1 := primeSum_le_sq x
  have h2 : x * x ≤ 2 ^ 124 * 2 ^ 124 := Nat.mul_le_mul hx.le hx.le
  constructor <;> omega

theorem runPi_small (e : Pi.Env) (x : ℤ) (threads : ℤ) (hx : x < 2) :
    Ok (runPi e x threads) (fun r => r.val = 0) := by
  refine Ok.bind PhiTiny.build_ok (fun tiny _ => ?_)
  unfold Pi.pi
  rw [if_pos hx]
  exact Ok.pure (by decide)

/-- `pi(x)` is the sum of the primes `≤ x`.

Full claim: for every `x ≤ limit`.  That claim is false (`C01_counterexample`).  Missing: `x` such that the
multiplication of `int256_t` goes wrong (`NoWindow`, see C17), `x / y ≥ 2^59` (there sums of `BitSieve` can
exceed 64 bits, `C29_overflow`), and `x ≥ 2^103`. -/
theorem C01_pi_partial (e : Pi.Env) (x : ℕ) (threads : ℤ) (hv : e.Valid) (hth : 1 ≤ threads)
    (hlim : x ≤ e.limit x) (hx : x < 2 ^ 103) (hz : x / e.y x + 129 < 2 ^ 59)
    (hw : x < 52175271301331128848 ∨ NoWindow x 6) :
    Ok (runPi e x threads) (fun r => r.val = primeSum x) := by
  rcases Nat.lt_or_ge x 2 with h2 | h2
  · rw [primeSum_lt_two h2]
    exact runPi_small e x threads (by omega)
  have hw' : NoWindow x 6 := by
    rcases hw with h | h
    · exact noWindow_of_lt 6 (by unfold badK; omega)
    · exact h
  obtain ⟨y1, y2, y3⟩ := Pi.y_facts hv.fp (by omega : 1 ≤ x) (by omega)
  have hs1 : Ok (PS.s1 e.schedS1 x (e.y x) (min 6 (π (e.y x))))
      (fun r => Rep r (S1Sum x (e.y x) (min 6 (π (e.y x))) + 0)) := by
    rw [add_zero]
    generalize e.y x = y at *
    obtain ⟨c1, c2, c3⟩ := c_cases y
    rcases Nat.lt_or_ge x (2 ^ 63) with h63 | h63
    · exact (C12_S1_64_fits_partial _ hv.schedS1 x y _ h63 y1 (by omega) (prm_small (by omega)) c2).mono (fun r hr => rep_of_val hr)
    · exact (C12_S1_128_partial _ hv.schedS1 x y _ (by omega) y1 (by nlinarith) (Or.inl h63) (prm_small (by omega))
        (hw'.anti (by omega))).mono (fun r hr => rep_of_val hr)
  refine (Pi.pi_off hv h2 hx hz hth hlim hs1).mono (fun r hr => ?_)
  rw [add_zero] at hr
  exact rep_val (R := I256) r _ hr (primeSum_inRange (by omega))

theorem z_bound {x y : ℕ} (h1 : 1 ≤ x) (hx : x < 2 ^ 88) (h3 : iroot 3 x ≤ y) : x / y + 129 < 2 ^ 59 := by
  exact Pi.div_lt_of_root (k := 1) (B := 646 * 2 ^ 20) h1 le_rfl (by simpa using h3) (lt_of_lt_of_le hx (by norm_num)) (by norm_num)

theorem z_bound58 {x y : ℕ} (h1 : 1 ≤ x) (hx : x < 2 ^ 86) (h3 : iroot 3 x ≤ y) : x / y + 129 < 2 ^ 58 := by
  have h4 : 1 ≤ iroot 3 x := le_iroot (by norm_num) (by simpa using h1)
  have h5 := lt_iroot_succ 3 x (by norm_num)
  have h6 := iroot_le 3 x (by norm_num)
  have h7 : x / y ≤ x / iroot 3 x := Nat.div_le_div_left h3 h4
  have h8 : x / iroot 3 x + 129 < 2 ^ 58 := by
    generalize iroot 3 x = t at *
    have ht : t < 425 * 2 ^ 20 := by
      by_contra hc
      push Not at hc
      have : (425 * 2 ^ 20) ^ 3 ≤ t ^ 3 := Nat.pow_le_pow_left hc 3
      norm_num at this hx h6
      omega
    have h9 : x / t ≤ t * t + 3 * t + 6 := by
      rw [Nat.div_le_iff_le_mul_add_pred h4]
      have : (t + 1) ^ 3 = t * (t * t + 3 * t + 3) + 1 := by ring
      nlinarith
    have : t * t ≤ (425 * 2 ^ 20) * (425 * 2 ^ 20) := Nat.mul_le_mul ht.le ht.le
    omega
  omega

/-- The bound on `x / y` holds for every tuning factor below `2^88`. -/
theorem C01_z_bound (e : Pi.Env) (x : ℕ) (hf : e.FP) (h1 : 1 ≤ x) (hx : x < 2 ^ 88) :
    x / e.y x + 129 < 2 ^ 59 := z_bound h1 hx (Pi.y_range hf h1 (by omega)).1

/-- With the default tuning factor it holds up to `5 * 10^29`. -/
theorem C01_z_default (e : Pi.Env) (x : ℕ) (hf : e.FP) (hl : e.lib.Accurate) (hd : e.alpha.lt (.fin 1) = true) (h1 : 1 ≤ x)
    (hx : x ≤ 5 * 10 ^ 29) : x / e.y x + 129 < 2 ^ 59 := Pi.Env.Reach.z (Or.inr ⟨hx, hd, hl⟩) hf h1

/-- C01 without conditions on `y`: for every tuning factor below `2^88`, with the default one up to `5 * 10^29`. -/
theorem C01_pi_reach_partial (e : Pi.Env) (x : ℕ) (threads : ℤ) (hv : e.Valid) (hth : 1 ≤ threads)
    (hb : e.Reach x) (hw : x < 52175271301331128848 ∨ NoWindow x 6) :
    Ok (runPi e x threads) (fun r => r.val = primeSum x) := by
  have hlt := hb.lt
  rcases Nat.lt_or_ge x 2 with h2 | h2
  · rw [primeSum_lt_two h2]
    exact runPi_small e x threads (by omega)
  · exact C01_pi_partial e x threads hv hth (hb.limit hv.fp (by omega)) (by omega) (hb.z hv.fp (by omega)) hw

/-- For `x` below about `5.2 * 10^19` there are no exceptions: whatever the tuning factor, the number of threads,
the schedules and the timings. -/
theorem C01_pi_below (e : Pi.Env) (x : ℕ) (threads : ℤ) (hv : e.Valid) (hth : 1 ≤ threads)
    (hx : x < 52175271301331128848) :
    Ok (runPi e x threads) (fun r => r.val = primeSum x) := by
  rcases Nat.lt_or_ge x 2 with h2 | h2
  · rw [primeSum_lt_two h2]
    exact runPi_small e x threads (by omega)
  exact C01_pi_partial e x threads hv hth (Pi.le_limit hv.fp (by omega) (by omega)) (by omega)
    (C01_z_bound e x hv.fp (by omega) (by omega)) (Or.inl hx)

/-- `phi_sum(52175271301331128848, 6)` is `2^128` too large. -/
theorem phiSumM_bad : Ok (phiSumM 52175271301331128848 6)
    (fun r => r.val = phiSum 52175271301331128848 6 + 2 ^ 128) := by
  have h : (phiSumM 52175271301331128848 6).toOption.map I256.val =
      some ((phiRec 6 52175271301331128848 : ℤ) + 2 ^ 128) := by decide +kernel
  rw [phiRec_eq _ _ (by norm_num)] at h
  cases hr : phiSumM 52175271301331128848 6 with
  | error e => rw [hr] at h; simp [Except.toOption] at h
  | ok r =>
    rw [hr] at h
    simp only [Except.toOption, Option.map_some, Option.some.injEq] at h
    exact Ok.ok h

/-- At `x = 52175271301331128848` the result is `2^128` too large: whatever the tuning factor, the number of
threads, the schedules and the timings. -/
theorem C01_counterexample (e : Pi.Env) (threads : ℤ) (hv : e.Valid) (hth : 1 ≤ threads) :
    Ok (runPi e 52175271301331128848 threads) (fun r => r.val = primeSum 52175271301331128848 + 2 ^ 128) := by
  have hz := C01_z_bound e 52175271301331128848 hv.fp (by norm_num) (by norm_num)
  obtain ⟨hr1, hr2⟩ := Pi.y_range (e := e) (x := 52175271301331128848) hv.fp (by norm_num) (by norm_num)
  obtain ⟨y1, y2, y3⟩ := Pi.y_facts (e := e) (x := 52175271301331128848) hv.fp (by norm_num) (by norm_num)
  have hc : min 6 (π (e.y 52175271301331128848)) = 6 := by
    have h13 : 13 ≤ e.y 52175271301331128848 := le_trans (le_iroot (by norm_num) (by norm_num)) hr1
    have : π 13 ≤ π (e.y 52175271301331128848) := Nat.monotone_primeCounting h13
    have h8 : π 13 = 6 := by decide +kernel
    omega
  have hs1 := s1_off (y := e.y 52175271301331128848) phiSumM_bad (Or.inl (by norm_num))
    (fun n hn _ => noWindow_of_lt 6 (by
      have : 52175271301331128848 / n ≤ 52175271301331128848 / 2 := Nat.div_le_div_left hn (by norm_num)
      unfold badK; omega)) (by norm_num) (prm_small le_rfl) (by nlinarith) y1 hv.schedS1
  refine (Pi.pi_off hv (by norm_num) (by norm_num) hz hth (Pi.le_limit hv.fp (by norm_num) (by norm_num)) (E := 2 ^ 128) (by rw [hc]; exact hs1)).mono
    (fun r hr => ?_)
  refine rep_val (R := I256) r _ hr (show I256.InRange _ from ?_)
  have h1 := primeSum_le_sq 52175271301331128848
  constructor <;> omega

/-- A C library, for the examples. -/
def exampleLib : Pi.Lib where
  log
    | .fin q => .fin (Int.log 2 q * (7 / 10))
    | _ => .nan
  pow
    | .fin q, .fin e =>
      if e = 3 / 2 ∧ 1 ≤ q then .fin (Nat.sqrt ⌊q ^ 3⌋.toNat)
      else if 0 ≤ e then .fin (q ^ ⌊e⌋.toNat)
      else .nan
    | _, _ => .nan

theorem exampleLib_ok : exampleLib.OK where
  log n h1 h2 := by
    obtain ⟨q, hq, q1, q2⟩ := Dbl.ofInt_near h1 h2
    rw [hq]
    have h1' : (1 : ℚ) ≤ n := by exact_mod_cast h1
    have h2' : (n : ℚ) < 2 ^ 127 := by exact_mod_cast h2
    have q0 : 0 < q := by linarith
    have l2 : Int.log 2 q < 128 := by
      rw [← Int.lt_zpow_iff_log_lt (by norm_num) q0]
      have : q < 2 ^ 128 := by linarith
      exact_mod_cast this
    have l3 : (0 : ℤ) ≤ Int.log 2 q := by
      have h := Dbl.ofInt_atLeast h1
      rw [hq] at h
      rw [← Int.zpow_le_iff_le_log (by norm_num) q0]
      exact h
    have l2' : (Int.log 2 q : ℚ) < 128 := by exact_mod_cast l2
    have l3' : (0 : ℚ) ≤ Int.log 2 q := by exact_mod_cast l3
    exact ⟨_, rfl, by positivity, by linarith⟩
  sq v h0 h1 := by
    refine ⟨v ^ 2, ?_, by positivity, by nlinarith⟩
    simp only [exampleLib]
    rw [if_neg (by norm_num), if_pos (by norm_num), show ⌊(2 : ℚ)⌋.toNat = 2 by norm_num; rfl]
  cube v h0 h1 := by
    refine ⟨v ^ 3, ?_, by positivity, ?_⟩
    · simp only [exampleLib]
      rw [if_neg (by norm_num), if_pos (by norm_num), show ⌊(3 : ℚ)⌋.toNat = 3 by norm_num; rfl]
    · have : v ^ 3 ≤ 100 ^ 3 := by gcongr
      norm_num at this ⊢
      linarith
  pow61 := by
    refine ⟨2 ^ 61, ?_, by norm_num, by norm_num⟩
    simp only [exampleLib]
    rw [if_neg (by norm_num), if_pos (by norm_num), show ⌊(61 : ℚ)⌋.toNat = 61 by norm_num; rfl]
  pow32 q h0 h1 := by
    refine ⟨(Nat.sqrt ⌊q ^ 3⌋.toNat : ℕ), if_pos ⟨rfl, le_trans (by norm_num) h0⟩, by positivity, ?_, ?_⟩
    all_goals
      have q0 : 0 ≤ q ^ 3 := by
        have : 0 ≤ q := le_trans (by positivity) h0
        positivity
      have f0 : 0 ≤ ⌊q ^ 3⌋ := Int.floor_nonneg.2 q0
      have f1 : ((⌊q ^ 3⌋.toNat : ℕ) : ℚ) = (⌊q ^ 3⌋ : ℚ) := by
        exact_mod_cast congrArg (Int.cast (R := ℚ)) (Int.toNat_of_nonneg f0)
      set N := ⌊q ^ 3⌋.toNat
    · have h2 : N < (Nat.sqrt N + 1) * (Nat.sqrt N + 1) := Nat.lt_succ_sqrt N
      have h3 : (N : ℚ) + 1 ≤ (Nat.sqrt N + 1) * (Nat.sqrt N + 1) := by exact_mod_cast h2
      have h4 := Int.lt_floor_add_one (q ^ 3)
      have h5 : ((2 : ℚ) ^ 60) ^ 3 ≤ q ^ 3 := by gcongr
      have h6 : (10 : ℚ) ^ 6 ≤ Nat.sqrt N := by
        have : 10 ^ 6 ≤ Nat.sqrt N := by
          rw [Nat.le_sqrt]
          have : ((10 ^ 6 * 10 ^ 6 : ℕ) : ℚ) ≤ N := by
            push_cast
            rw [f1]
            linarith
          exact_mod_cast this
        exact_mod_cast this
      nlinarith
    · have h2 : Nat.sqrt N ^ 2 ≤ N := Nat.sqrt_le' N
      have h3 : ((Nat.sqrt N : ℕ) : ℚ) ^ 2 ≤ N := by exact_mod_cast h2
      have h4 := Int.floor_le (q ^ 3)
      linarith

/-- An environment, for the examples: one thread, tuning factor `a`. -/
def exampleEnv (a : ℚ) (lib : Bool) : Pi.Env :=
  ⟨Scheduler.seq, Scheduler.seq, Scheduler.seq, Scheduler.seq,
    ⟨Scheduler.seq, fun k i => .fin (k + i / 7), fun _ => .fin 3, FactorTable.Merge.seq⟩, fun _ => .lt, lib, 10, 10, .fin a, exampleLib⟩

theorem exampleEnv_fp (a : ℚ) (lib : Bool) : (exampleEnv a lib).FP := ⟨exampleLib_ok, by simp [exampleEnv]⟩

theorem exampleEnv_valid (a : ℚ) (lib : Bool) : (exampleEnv a lib).Valid where
  schedP2 := Scheduler.seq_valid
  schedS1 := Scheduler.seq_valid
  schedTrivial := Scheduler.seq_valid
  schedEasy := Scheduler.seq_valid
  schedHard := Scheduler.seq_valid
  merge := Merge_seq_valid
  fp := exampleEnv_fp a lib

/-- Non-vacuity of `C01_pi_below` and `C01_counterexample`. -/
example : Ok (runPi (exampleEnv (7 / 2) true) (10 ^ 19 : ℕ) 4) (fun r => r.val = primeSum (10 ^ 19)) :=
  C01_pi_below _ _ _ (exampleEnv_valid _ _) (by norm_num) (by norm_num)

example : Ok (runPi (exampleEnv (7 / 2) true) 52175271301331128848 4)
    (fun r => r.val = primeSum 52175271301331128848 + 2 ^ 128) :=
  C01_counterexample _ _ (exampleEnv_valid _ _) (by norm_num)

/-- Non-vacuity of `C01_pi_partial`: `10^25`. -/
theorem noWindow_ten_pow_25 : NoWindow (10 ^ 25) 6 := by
  refine noWindow_of_jumps _ _ (by omega)
    (fun a => (#[383323, 271050, 221311, 197947, 183263, 174735] : Array ℕ).getD a 0) ?_
  decide +kernel

example : Ok (runPi (exampleEnv 20 false) (10 ^ 25 : ℕ) 8) (fun r => r.val = primeSum (10 ^ 25)) :=
  C01_pi_partial _ _ _ (exampleEnv_valid _ _) (by norm_num) 
    (Pi.le_limit (exampleEnv_fp _ _) (by norm_num) (by norm_num)) (by norm_num)
    (C01_z_bound _ _ (exampleEnv_fp _ _) (by norm_num) (by norm_num)) (Or.inr noWindow_ten_pow_25)

/-! ### C02 -/

/-- Two runs with the same tuning factor and the same C library return the same value: every number of threads, every
assignment of iterations to threads, every order of reduction, every timing.  This includes the `x` for which
the value is wrong because of the multiplication of `int256_t`.

Full claim: also for `x / y ≥ 2^59` (there sums of `BitSieve` can exceed 64 bits and are then not those of the
binary indexed tree, and `few_leaves` decides which of them is used) and for `x ≥ 2^103`. -/
theorem C02_deterministic_partial (e e' : Pi.Env) (x : ℕ) (threads threads' : ℤ) (hv : e.Valid) (hv' : e'.Valid)
    (ha : e'.alpha = e.alpha) (hl : e'.lib = e.lib) (hth : 1 ≤ threads) (hth' : 1 ≤ threads')
    (hlim : x ≤ e.limit x) (hx : x < 2 ^ 103)
    (hz : x / e.y x + 129 < 2 ^ 59) :
    ∃ v : ℤ, Ok (runPi e x threads) (fun r => r.val = v) ∧ Ok (runPi e' x threads') (fun r => r.val = v) := by
  have had : e'.alphaD x = e.alphaD x := by unfold Pi.Env.alphaD; rw [ha, hl]
  have hy : e'.y x = e.y x := by unfold Pi.Env.y; rw [had]
  have hlim' : x ≤ e'.limit x := by unfold Pi.Env.limit; rw [had, hl]; exact hlim
  rcases Nat.lt_or_ge x (2 ^ 63) with h63 | h63
  · exact ⟨primeSum x, C01_pi_partial e x threads hv hth hlim hx hz (Or.inl (by omega)),
      C01_pi_partial e' x threads' hv' hth' hlim' hx (by rw [hy]; exact hz) (Or.inl (by omega))⟩
  obtain ⟨y1, y2, y3⟩ := Pi.y_facts hv.fp (by omega : 1 ≤ x) (by omega)
  obtain ⟨D, hD⟩ := s1_det (x := x) (y := e.y x) (c := min 6 (π (e.y x))) (Or.inl h63)
    (prm_small (min_le_left _ _)) (Pi.y_lt_63 y2 (by omega))
  have e1 : D = S1Sum x (e.y x) (min 6 (π (e.y x))) + (D - S1Sum x (e.y x) (min 6 (π (e.y x)))) := by ring
  have h1 := Pi.pi_off hv (by omega) hx hz hth hlim (E := D - S1Sum x (e.y x) (min 6 (π (e.y x))))
    (by rw [← e1]; exact hD _ hv.schedS1)
  have h2 := Pi.pi_off hv' (by omega) hx (by rw [hy]; exact hz) hth' hlim'
    (E := D - S1Sum x (e.y x) (min 6 (π (e.y x)))) (by rw [hy, ← e1]; exact hD _ hv'.schedS1)
  exact ⟨_, h1, h2⟩

/-- Non-vacuity: two environments that differ in schedules and timings. -/
example : ∃ v : ℤ, Ok (runPi (exampleEnv 3 false) (52175271301331128848 : ℕ) 1) (fun r => r.val = v) ∧
    Ok (runPi { exampleEnv 3 false with libdivide := true, timeP2 := fun i => if i % 2 = 0 then .gt else .lt }
      (52175271301331128848 : ℕ) 9) (fun r => r.val = v) :=
  C02_deterministic_partial _ _ _ _ _ (exampleEnv_valid _ _)
    ⟨Scheduler.seq_valid, Scheduler.seq_valid, Scheduler.seq_valid, Scheduler.seq_valid, Scheduler.seq_valid,
      Merge_seq_valid, ⟨exampleLib_ok, (exampleEnv_fp 3 false).alpha⟩⟩
    rfl rfl (by norm_num) (by norm_num) (Pi.le_limit (exampleEnv_fp _ _) (by norm_num) (by norm_num)) (by norm_num)
    (C01_z_bound _ _ (exampleEnv_fp _ _) (by norm_num) (by norm_num))

/-! ### C03 -/

/-- Every tuning factor leads to a `y` between the cube root of `x` and the product of its cube root and sixth
root. -/
theorem C03_y_range (e : Pi.Env) (x : ℕ) (hf : e.FP) (hx1 : 1 ≤ x) (hx : x < 2 ^ 106) :
    iroot 3 x ≤ e.y x ∧ e.y x ≤ iroot 3 x * iroot 6 x := Pi.y_range hf hx1 hx

/-- Runs with different tuning factors return the same value.  Full claim: also where C01 is not proved. -/
theorem C03_alpha_partial (e e' : Pi.Env) (x : ℕ) (threads threads' : ℤ) (hv : e.Valid) (hv' : e'.Valid)
    (hth : 1 ≤ threads) (hth' : 1 ≤ threads') (hx : e.Reach x) (hx' : e'.Reach x)
    (hw : x < 52175271301331128848 ∨ NoWindow x 6) :
    ∃ v : ℤ, Ok (runPi e x threads) (fun r => r.val = v) ∧ Ok (runPi e' x threads') (fun r => r.val = v) :=
  ⟨primeSum x, C01_pi_reach_partial e x threads hv hth hx hw, C01_pi_reach_partial e' x threads' hv' hth' hx' hw⟩

example : ∃ v : ℤ, Ok (runPi (exampleEnv 3 false) (10 ^ 25 : ℕ) 1) (fun r => r.val = v) ∧
    Ok (runPi (exampleEnv (1001 / 10) true) (10 ^ 25 : ℕ) 9) (fun r => r.val = v) :=
  C03_alpha_partial _ _ _ _ _ (exampleEnv_valid _ _) (exampleEnv_valid _ _) (by norm_num) (by norm_num)
    (Or.inl (by norm_num)) (Or.inl (by norm_num)) (Or.inr noWindow_ten_pow_25)

/-! ### C04 -/

/-- `pi(x) = 0` for every `x < 2`, also negative. -/
theorem C04_pi_small (e : Pi.Env) (x : ℤ) (threads : ℤ) (hx : x < 2) :
    Ok (runPi e x threads) (fun r => r.val = 0) := runPi_small e x threads hx

/-- `pi` is monotone and nonnegative.  Full claim: without the bound on `x'`; it is false
(`C04_counterexample`). -/
theorem C04_pi_mono_partial (e e' : Pi.Env) (x x' : ℕ) (threads threads' : ℤ) (hv : e.Valid) (hv' : e'.Valid)
    (hth : 1 ≤ threads) (hth' : 1 ≤ threads') (hxx : x ≤ x') (hx : x' < 52175271301331128848) :
    Ok (runPi e x threads) (fun r => 0 ≤ r.val ∧ Ok (runPi e' x' threads') (fun r' => r.val ≤ r'.val)) := by
  refine (C01_pi_below e x threads hv hth (by omega)).mono (fun r hr => ⟨by omega, ?_⟩)
  refine (C01_pi_below e' x' threads' hv' hth' hx).mono (fun r' hr' => ?_)
  have := primeSum_mono hxx
  omega

example : Ok (runPi (exampleEnv 3 false) (-5) 1) (fun r => r.val = 0) := C04_pi_small _ _ _ (by norm_num)

example : Ok (runPi (exampleEnv 3 false) (100 : ℕ) 1) (fun r => 0 ≤ r.val ∧
    Ok (runPi (exampleEnv 2 true) (10 ^ 18 : ℕ) 5) (fun r' => r.val ≤ r'.val)) :=
  C04_pi_mono_partial _ _ _ _ _ _ (exampleEnv_valid _ _) (exampleEnv_valid _ _) (by norm_num) (by norm_num) (by norm_num) (by norm_num)

theorem primeSum_add_two_le (n : ℕ) : primeSum (n + 2) ≤ primeSum n + (2 * n + 3) := by
  have h1 := primeSum_succ n
  have h2 := primeSum_succ (n + 1)
  rw [show n + 1 + 1 = n + 2 from rfl] at h2
  split_ifs at h1 h2 <;> omega

/-- `pi` is not monotone: `pi(52175271301331128848) > pi(52175271301331128850)`. -/
theorem C04_counterexample (e e' : Pi.Env) (threads threads' : ℤ) (hv : e.Valid)
    (hv' : e'.Valid) (hth : 1 ≤ threads) (hth' : 1 ≤ threads') :
    Ok (runPi e 52175271301331128848 threads) (fun r =>
      Ok (runPi e' (52175271301331128850 : ℕ) threads') (fun r' => r'.val < r.val)) := by
  refine (C01_counterexample e threads hv hth).mono (fun r hr => ?_)
  have hw : NoWindow 52175271301331128850 6 := by
    refine .of_forall (fun m a hm ha hc => ?_)
    rcases Nat.lt_or_ge a 1 with h | h
    · obtain rfl : a = 0 := by omega
      rcases Nat.lt_or_ge m 3 with h3 | h3
      · obtain rfl : m = 2 := by omega
        rw [← phiRec_eq _ _ (by norm_num)] at hc
        have h5 : ¬ (2 ^ 128 - 2 ^ 64 < phiRec 0 (52175271301331128850 / 2) ∧
          phiRec 0 (52175271301331128850 / 2) ≤ 2 ^ 128) := by decide +kernel
        exact h5 hc
      · have h4 : phiSum (52175271301331128850 / m) 0 ≤ phiSum (52175271301331128850 / 3) 0 :=
          phiSum_mono (Nat.div_le_div_left h3 (by omega))
        have h5 : phiRec 0 (52175271301331128850 / 3) ≤ 2 ^ 128 - 2 ^ 64 := by decide +kernel
        rw [phiRec_eq _ _ (by norm_num)] at h5
        exact absurd (lt_of_lt_of_le hc.1 h4) (not_lt.2 h5)
    · have h4 : phiSum (52175271301331128850 / m) a ≤ phiSum (52175271301331128850 / 2) a :=
        phiSum_mono (Nat.div_le_div_left hm (by omega))
      have h6 := phiSum_anti (x := 52175271301331128850 / 2) h
      have h5 : phiRec 1 (52175271301331128850 / 2) ≤ 2 ^ 128 - 2 ^ 64 := by decide +kernel
      rw [phiRec_eq _ _ (by norm_num)] at h5
      exact absurd (lt_of_lt_of_le hc.1 (h4.trans h6)) (not_lt.2 h5)
  refine (C01_pi_partial e' 52175271301331128850 threads' hv' hth' (Pi.le_limit hv'.fp (by norm_num) (by norm_num)) (by norm_num)
    (C01_z_bound e' _ hv'.fp (by norm_num) (by norm_num)) (Or.inr hw)).mono (fun r' hr' => ?_)
  have h1 := primeSum_add_two_le 52175271301331128848
  rw [show 52175271301331128848 + 2 = 52175271301331128850 from rfl] at h1
  rw [hr, hr']
  generalize primeSum 52175271301331128850 = s at *
  generalize primeSum 52175271301331128848 = t at *
  omega

example : Ok (runPi (exampleEnv 3 false) 52175271301331128848 1) (fun r =>
    Ok (runPi (exampleEnv 3 false) (52175271301331128850 : ℕ) 1) (fun r' => r'.val < r.val)) :=
  C04_counterexample _ _ _ _ (exampleEnv_valid _ _) (exampleEnv_valid _ _) (by norm_num) (by norm_num)

/-! ### C43 -/

/-- `pi(x)` throws for every `x` above the limit. -/
theorem C43_throws (e : Pi.Env) (x : ℕ) (threads : ℤ) (hf : e.FP) (h2 : 2 ≤ x) (hx : x < 2 ^ 127) (hlim : e.limit x < x) :
    runPi e x threads = .error (.thrown ("pi(x): x must be <= " ++ toString (e.limit x : ℤ))) := by
  obtain ⟨tiny, ht, _⟩ := PhiTiny.build_ok
  show (do let tiny ← PhiTiny.build; Pi.pi e tiny x threads) = _
  rw [ht, ok_bind]
  unfold Pi.pi
  rw [if_neg (by omega)]
  dsimp only
  rw [Int.toNat_natCast, Pi.getAlpha_eq, ok_bind, (Pi.limit_ok hf (by omega) hx).1, ok_bind, if_pos (by omega)]

/-- The limit is within one percent of `(2^61 α)^(3/2)`; the squares are compared.  It is at least `2^91`, and every
`x ≥ 2^123` is above it, whatever the tuning factor. -/
theorem C43_limit (e : Pi.Env) (x : ℕ) (hf : e.FP) (h1 : 1 ≤ x) (hx : x < 2 ^ 127) :
    (2 ^ 61 * e.alphaOf x) ^ 3 * (99 / 100) ≤ (e.limit x + 1 : ℚ) ^ 2 ∧
    (e.limit x : ℚ) ^ 2 ≤ (2 ^ 61 * e.alphaOf x) ^ 3 * (101 / 100) ∧
    (x < 2 ^ 91 → x ≤ e.limit x) ∧ (2 ^ 123 ≤ x → e.limit x < x) :=
  ⟨(Pi.limit_ok hf h1 hx).2.1, (Pi.limit_ok hf h1 hx).2.2, fun h => Pi.le_limit hf h1 h, fun h => Pi.limit_lt hf h hx⟩

/-- An `x` that is accepted satisfies `z = x / y < 2^62`. -/
theorem C43_z (e : Pi.Env) (x : ℕ) (h1 : 1 ≤ x) (hx : x < 2 ^ 127) (hf : e.FP) (hlim : x ≤ e.limit x) :
    x / e.y x < 2 ^ 62 := lt_trans (Pi.z_le_limit hf h1 hx hlim) (by norm_num)

/-- Non-vacuity: rounding at work. -/
example : binary64 (2 ^ 53 + 1) = 2 ^ 53 := by
  have hl : Int.log 2 |(2 ^ 53 + 1 : ℚ)| = 53 := by
    rw [show |(2 ^ 53 + 1 : ℚ)| = ((2 ^ 53 + 1 : ℕ) : ℚ) by rw [abs_of_pos (by norm_num)]; push_cast; ring, Int.log_natCast]
    have : Nat.log 2 (2 ^ 53 + 1) = 53 := (Nat.log_eq_iff (by norm_num)).2 ⟨by norm_num, by norm_num⟩
    rw [this]; rfl
  have hu : ulpExp (2 ^ 53 + 1) = 1 := by unfold ulpExp; rw [hl]; norm_num
  have hf : ⌊((2 : ℚ) ^ 53 + 1) / 2 ^ (1 : ℤ)⌋ = 2 ^ 52 := by
    rw [Int.floor_eq_iff]; norm_num
  unfold binary64 roundEven
  rw [hu, hf]
  rw [if_neg (by norm_num), if_neg (by norm_num), if_pos ⟨2 ^ 51, by norm_num⟩]
  norm_num

/-- Non-vacuity: `10^30` with the tuning factor 60 is accepted. -/
theorem limit_60 (x : ℕ) (h1 : 60 ^ 6 ≤ x) (h2 : x ≤ 10 ^ 30) : x ≤ (exampleEnv 60 true).limit x := by
  have ha : (exampleEnv 60 true).alphaD x = .fin 60 := by
    have h3 : (60 : ℚ) ≤ iroot 6 x := by exact_mod_cast le_iroot (N := 6) (by norm_num) h1
    exact Pi.clamp_set (by norm_num) h3 (by omega)
  have h := (C43_limit (exampleEnv 60 true) x (exampleEnv_fp _ _) (by omega) (by omega)).1
  have hq : (exampleEnv 60 true).alphaOf x = 60 := by unfold Pi.Env.alphaOf; rw [ha]; rfl
  rw [hq] at h
  generalize (exampleEnv 60 true).limit x = m at *
  by_contra hc
  have h3 : (m : ℚ) + 1 ≤ 10 ^ 30 := by
    have : m + 1 ≤ 10 ^ 30 := by omega
    exact_mod_cast this
  have h4 : ((m : ℚ) + 1) ^ 2 ≤ (10 ^ 30) ^ 2 := by gcongr
  norm_num at h h4
  linarith

example : 10 ^ 30 / (exampleEnv 60 true).y (10 ^ 30) < 2 ^ 62 :=
  C43_z _ _ (by norm_num) (by norm_num) (exampleEnv_fp _ _) (limit_60 _ (by norm_num) le_rfl)

example : runPi (exampleEnv 3 false) (2 ^ 125 : ℕ) 1 =
    .error (.thrown ("pi(x): x must be <= " ++ toString ((exampleEnv 3 false).limit (2 ^ 125) : ℤ))) :=
  C43_throws _ _ _ (exampleEnv_fp _ _) (by norm_num) (by norm_num)
    (Pi.limit_lt (exampleEnv_fp _ _) (by norm_num) (by norm_num))

end PS
