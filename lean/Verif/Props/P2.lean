import Verif.Proof.P2

/-!
# Property C11: the second partial sieve function

`P2Sum x y` (Spec/Basic.lean) is the sum of the `n ≤ x` which are a product of two primes, both `> y`.
-/

namespace PS
open Finset

theorem P2_val {tiny : Vec PhiTiny.Tab} (ht : PhiTiny.Valid tiny 6) {sched : Scheduler} (hs : sched.Valid)
    (time : ℕ → Ordering) {threads : ℤ} (hth : 1 ≤ threads) {x y : ℕ} (hx : x < 2 ^ 124)
    (hy : y < 2 ^ 62) (hz : x / max y 1 ≤ 2 ^ 62) :
    Ok (P2.p2 tiny sched time threads x y) (fun r => r.val = P2Sum x y) := by
  have hle := P2.P2Sum_le x y
  unfold P2.p2
  refine Ok.ite (fun h => ?_) (fun h => ?_)
  · refine Ok.bind (P2.master_ok (R := W128) ht hs time hth hx hy hz) (fun r hr => Ok.pure ?_)
    have : x * (x + 1) ≤ 2 ^ 63 * 2 ^ 63 := Nat.mul_le_mul (by omega) (by omega)
    exact LawfulRes.rep_val r _ hr (show (-2 ^ 127 : ℤ) ≤ P2Sum x y ∧ (P2Sum x y : ℤ) < 2 ^ 127 by omega)
  · refine Ok.bind (P2.master_ok (R := I256) ht hs time hth hx hy hz) (fun r hr => Ok.pure ?_)
    have : x * (x + 1) ≤ 2 ^ 127 * 2 ^ 127 := Nat.mul_le_mul (by omega) (by omega)
    exact LawfulRes.rep_val r _ hr (show I256.InRange (P2Sum x y : ℤ) by constructor <;> omega)

/-- `P2(x, y, threads)` is the sum of the `n ≤ x` which are a product of two primes `> y`, for every `x < 2^124`
and `y < 2^62` with `x / y ≤ 2^62`, every number of threads, every distribution of the work over the threads and every sequence of
thread distances the load balancer can produce (`time k` says how the `k`-th iteration compares to 60 s). -/
theorem C11_P2 (sched : Scheduler) (hs : sched.Valid) (time : ℕ → Ordering) (threads : ℤ) (hth : 1 ≤ threads)
    (x y : ℕ) (hx : x < 2 ^ 124) (hy : y < 2 ^ 62) (hz : x / max y 1 ≤ 2 ^ 62) :
    Ok (do let tiny ← PhiTiny.build; P2.p2 tiny sched time threads x y) (fun r => r.val = P2Sum x y) :=
  Ok.bind PhiTiny.build_ok (fun _ ht => P2_val ht hs time hth hx hy hz)

/-- The result does not depend on threads, schedule or timings. -/
theorem C11_deterministic (sched sched' : Scheduler) (hs : sched.Valid) (hs' : sched'.Valid)
    (time time' : ℕ → Ordering) (threads threads' : ℤ) (hth : 1 ≤ threads) (hth' : 1 ≤ threads')
    (x y : ℕ) (hx : x < 2 ^ 124) (hy : y < 2 ^ 62) (hz : x / max y 1 ≤ 2 ^ 62) :
    Ok (do let tiny ← PhiTiny.build; P2.p2 tiny sched time threads x y) (fun r =>
      Ok (do let tiny ← PhiTiny.build; P2.p2 tiny sched' time' threads' x y) (fun r' => r.val = r'.val)) :=
  (C11_P2 sched hs time threads hth x y hx hy hz).mono (fun _ h =>
    (C11_P2 sched' hs' time' threads' hth' x y hx hy hz).mono (fun _ h' => h.trans h'.symm))

/-- Non-vacuity: the numbers up to 30 with two prime factors `> 2` are 9, 15, 21, 25. -/
example : P2Sum 30 2 = 70 := by
  classical
  rw [P2.P2Sum_eq]
  have : Nat.sqrt 30 = 5 := by decide +kernel
  rw [this]
  decide +kernel

example : Ok (do let tiny ← PhiTiny.build; P2.p2 tiny Scheduler.seq (fun _ => .lt) 4 (10 ^ 30) (10 ^ 12))
    (fun r => r.val = P2Sum (10 ^ 30) (10 ^ 12)) :=
  C11_P2 _ Scheduler.seq_valid _ _ (by norm_num) _ _ (by norm_num) (by norm_num) (by norm_num)

/-- The limit on `x / y` is not an artefact: `z = x / max(y, 1)` is an `int64_t`, and the call fails whenever it does
not fit (and the sum is not known to be empty beforehand). -/
theorem C11_limit (sched : Scheduler) (hs : sched.Valid) (time : ℕ → Ordering) (threads : ℤ) (x y : ℕ)
    (hx : x < 2 ^ 124) (hy : y < 2 ^ 62) (hlt : Nat.primeCounting y < Nat.primeCounting (Nat.sqrt x))
    (hz : 2 ^ 63 ≤ x / max y 1) :
    Fails (do let tiny ← PhiTiny.build; P2.p2 tiny sched time threads x y) := by
  obtain ⟨tiny, h1, ht⟩ := PhiTiny.build_ok
  have hsx62 : Nat.sqrt x < 2 ^ 62 := by rw [Nat.sqrt_lt']; omega
  have hx63 : 2 ^ 63 ≤ x := hz.trans (Nat.div_le_self _ _)
  rw [h1, ok_bind]
  unfold P2.p2
  rw [if_neg (by omega)]
  refine Fails.bind_left ?_
  unfold P2.master
  rw [if_neg (by omega), Phi.piLegendre_ok ht hs _ hy, Phi.piLegendre_ok ht hs _ hsx62]
  simp only [ok_bind]
  rw [if_neg (by omega), cdiv_ok (by omega)]
  simp only [ok_bind]
  rw [fit_error hz]
  exact Fails.error _

/-- For instance `P2(10^20, 1)`: the hypotheses of `C11_limit` hold. -/
example : Nat.primeCounting 1 < Nat.primeCounting (Nat.sqrt (10 ^ 20)) ∧ 2 ^ 63 ≤ 10 ^ 20 / max 1 1 := by
  have h : Nat.sqrt (10 ^ 20) = 10 ^ 10 := by
    rw [show (10 : ℕ) ^ 20 = 10 ^ 10 * 10 ^ 10 by norm_num, Nat.sqrt_eq]
  rw [h, pi_lt_two (by norm_num)]
  exact ⟨pi_pos (by norm_num), by norm_num⟩

end PS
