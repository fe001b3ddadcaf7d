import Verif.Proof.Window
import Verif.Props.Main

/-!
# Property C01 beyond `5.2 * 10^19`: for which numbers the result is right

Seven quotients decide (`Exceptional`, Proof/Window.lean) whether a multiplication of `int256_t` values can go wrong.  Below
`7.8 * 10^20` the results that are wrong are listed; beyond, at most one number in `3 * 10^8` is concerned, and no power of ten.
-/

namespace PS

/-- C01 in terms of the quotients of `x`.

Full claim: for every `x ≤ limit`.  That claim is false (`C01_counterexample`).  Missing: the exceptional numbers, and the numbers out
of reach. -/
theorem C01_pi_exceptional_partial (e : Pi.Env) (x : ℕ) (threads : ℤ) (hv : e.Valid) (hth : 1 ≤ threads) (hb : e.Reach x)
    (hx : ¬ Exceptional x) : Ok (runPi e x threads) (fun r => r.val = primeSum x) :=
  C01_pi_reach_partial e x threads hv hth hb (Or.inr ((noWindow_iff x).2 hx))

/-! ## A test -/

theorem quot_iff {x p m K : ℕ} (hp : 0 < p) (hK : 0 < K) : x / (p * m) = K ↔ x / (p * (K + 1)) < m ∧ m ≤ x / (p * K) := by
  rw [Nat.le_div_iff_mul_le (by positivity), Nat.div_lt_iff_lt_mul (by positivity)]
  rcases Nat.eq_zero_or_pos m with rfl | hm
  · simp; omega
  · rw [Nat.div_eq_iff (by positivity)]
    have e1 : K * (p * m) = m * (p * K) := by ring
    have e2 : m * (p * (K + 1)) = m * (p * K) + p * m := by ring
    have h0 : 0 < p * m := by positivity
    rw [e1, e2]
    omega

/-- Whether some `m` prime to `M` satisfies `x / (p * m) = K`. -/
def hasQuot (x p M K : ℕ) : Bool :=
  (List.range (x / (p * K) - x / (p * (K + 1)))).any (fun i => Nat.gcd (x / (p * (K + 1)) + 1 + i) M == 1)

theorem hasQuot_iff {x p M K : ℕ} (hp : 0 < p) (hK : 0 < K) :
    hasQuot x p M K = true ↔ ∃ m, Nat.Coprime m M ∧ x / (p * m) = K := by
  unfold hasQuot
  simp only [List.any_eq_true, List.mem_range, beq_iff_eq]
  constructor
  · rintro ⟨i, h1, h2⟩
    exact ⟨_, h2, (quot_iff hp hK).2 ⟨by omega, by omega⟩⟩
  · rintro ⟨m, h1, h2⟩
    obtain ⟨h3, h4⟩ := (quot_iff hp hK).1 h2
    exact ⟨m - (x / (p * (K + 1)) + 1), by omega, by rw [show x / (p * (K + 1)) + 1 + (m - (x / (p * (K + 1)) + 1)) = m by omega]; exact h1⟩

/-- The test for exceptional numbers. -/
def exceptional (x : ℕ) : Bool :=
  hasQuot x 2 2 26087635650665564424 ||
  (hasQuot x 3 6 36893488147419103231 || hasQuot x 3 6 36893488147419103232) ||
  (hasQuot x 5 30 45185110396297924511 || hasQuot x 5 30 45185110396297924512) ||
  (hasQuot x 7 210 50518489208477310479 || hasQuot x 7 210 50518489208477310480)

theorem exceptional_iff (x : ℕ) : exceptional x = true ↔ Exceptional x := by
  unfold exceptional Exceptional
  simp only [Bool.or_eq_true]
  rw [hasQuot_iff (by norm_num) (by norm_num), hasQuot_iff (by norm_num) (by norm_num), hasQuot_iff (by norm_num) (by norm_num),
    hasQuot_iff (by norm_num) (by norm_num), hasQuot_iff (by norm_num) (by norm_num), hasQuot_iff (by norm_num) (by norm_num),
    hasQuot_iff (by norm_num) (by norm_num)]
  constructor
  · rintro (((⟨m, h1, h2⟩ | ⟨m, h1, h2⟩ | ⟨m, h1, h2⟩) | ⟨m, h1, h2⟩ | ⟨m, h1, h2⟩) | ⟨m, h1, h2⟩ | ⟨m, h1, h2⟩) <;> exact ⟨m, by tauto⟩
  · rintro ⟨m, ⟨h1, h2⟩ | ⟨h1, h2 | h2⟩ | ⟨h1, h2 | h2⟩ | ⟨h1, h2 | h2⟩⟩
    · exact Or.inl (Or.inl (Or.inl ⟨m, h1, h2⟩))
    · exact Or.inl (Or.inl (Or.inr (Or.inl ⟨m, h1, h2⟩)))
    · exact Or.inl (Or.inl (Or.inr (Or.inr ⟨m, h1, h2⟩)))
    · exact Or.inl (Or.inr (Or.inl ⟨m, h1, h2⟩))
    · exact Or.inl (Or.inr (Or.inr ⟨m, h1, h2⟩))
    · exact Or.inr (Or.inl ⟨m, h1, h2⟩)
    · exact Or.inr (Or.inr ⟨m, h1, h2⟩)

/-! ## Powers of ten and of two -/

theorem exceptional_ten : ∀ n < 30, exceptional (10 ^ n) = false := by decide +kernel

theorem exceptional_two : ∀ n < 99, exceptional (2 ^ n) = false := by decide +kernel

/-- The powers of ten that can be reached: `10^n`, `n ≤ 26`, for every tuning factor, up to `10^29` with the default one. -/
theorem C01_powers_of_ten (e : Pi.Env) (n : ℕ) (threads : ℤ) (hv : e.Valid) (hth : 1 ≤ threads)
    (hn : n ≤ 26 ∨ (n ≤ 29 ∧ e.alpha.lt (.fin 1) = true ∧ e.lib.Accurate)) :
    Ok (runPi e ((10 ^ n : ℕ) : ℤ) threads) (fun r => r.val = primeSum (10 ^ n)) := by
  refine C01_pi_exceptional_partial e (10 ^ n) threads hv hth ?_ ?_
  · rcases hn with h | ⟨h, h1, h2⟩
    · exact Or.inl (lt_of_le_of_lt (Nat.pow_le_pow_right (by norm_num) h) (by norm_num))
    · exact Or.inr ⟨le_trans (Nat.pow_le_pow_right (by norm_num) h) (by norm_num), h1, h2⟩
  · rw [← exceptional_iff, exceptional_ten n (by omega)]
    simp

/-- The powers of two that can be reached: `2^n`, `n ≤ 87`, for every tuning factor, up to `2^98` with the default one. -/
theorem C01_powers_of_two (e : Pi.Env) (n : ℕ) (threads : ℤ) (hv : e.Valid) (hth : 1 ≤ threads)
    (hn : n ≤ 87 ∨ (n ≤ 98 ∧ e.alpha.lt (.fin 1) = true ∧ e.lib.Accurate)) :
    Ok (runPi e ((2 ^ n : ℕ) : ℤ) threads) (fun r => r.val = primeSum (2 ^ n)) := by
  refine C01_pi_exceptional_partial e (2 ^ n) threads hv hth ?_ ?_
  · rcases hn with h | ⟨h, h1, h2⟩
    · exact Or.inl (lt_of_le_of_lt (Nat.pow_le_pow_right (by norm_num) h) (by norm_num))
    · exact Or.inr ⟨le_trans (Nat.pow_le_pow_right (by norm_num) h) (by norm_num), h1, h2⟩
  · rw [← exceptional_iff, exceptional_two n (by omega)]
    simp

/-! ## How many numbers are exceptional -/

section
open scoped Classical

theorem card_quot (X p K : ℕ) (hp : 0 < p) (hK : 0 < K) :
    p * K ^ 2 * ((Finset.Icc 1 X).filter (fun x => ∃ m, x / (p * m) = K)).card ≤ X ^ 2 := by
  set N := X / (p * K)
  have hsub : (Finset.Icc 1 X).filter (fun x => ∃ m, x / (p * m) = K) ⊆
      (Finset.Icc 1 N).biUnion (fun m => Finset.Ico (p * m * K) (p * m * K + p * m)) := by
    intro x hx
    obtain ⟨h1, m, hm⟩ := Finset.mem_filter.1 hx
    obtain ⟨h3, h4⟩ := Finset.mem_Icc.1 h1
    obtain ⟨h5, h6⟩ := (quot_iff hp hK).1 hm
    have h7 : x / (p * K) ≤ N := Nat.div_le_div_right h4
    have hm0 : 0 < m := lt_of_le_of_lt (Nat.zero_le _) h5
    have h0 : 0 < p * m := Nat.mul_pos hp hm0
    obtain ⟨h8, h9⟩ := (Nat.div_eq_iff h0).1 hm
    refine Finset.mem_biUnion.2 ⟨m, Finset.mem_Icc.2 ⟨hm0, le_trans h6 h7⟩, Finset.mem_Ico.2 ⟨?_, ?_⟩⟩
    · rw [mul_comm]; exact h8
    · rw [mul_comm (p * m) K]; omega
  have h1 := le_trans (Finset.card_le_card hsub) Finset.card_biUnion_le
  have h2 : ∑ m ∈ Finset.Icc 1 N, (Finset.Ico (p * m * K) (p * m * K + p * m)).card ≤ N * (p * N) := by
    have : ∑ m ∈ Finset.Icc 1 N, (Finset.Ico (p * m * K) (p * m * K + p * m)).card ≤ (Finset.Icc 1 N).card • (p * N) := by
      refine Finset.sum_le_card_nsmul _ _ _ (fun m hm => ?_)
      rw [Nat.card_Ico, Nat.add_sub_cancel_left]
      exact Nat.mul_le_mul_left _ (Finset.mem_Icc.1 hm).2
    simpa using this
  have h3 : N * (p * K) ≤ X := Nat.div_mul_le_self _ _
  calc _ ≤ p * K ^ 2 * (N * (p * N)) := Nat.mul_le_mul_left _ (le_trans h1 h2)
    _ = (N * (p * K)) ^ 2 := by ring
    _ ≤ X ^ 2 := Nat.pow_le_pow_left h3 2

theorem card_quot_le (X p K : ℕ) (hp : 2 ≤ p) (hK : 26087635650665564424 ≤ K) :
    2 * 26087635650665564424 ^ 2 * ((Finset.Icc 1 X).filter (fun x => ∃ m, x / (p * m) = K)).card ≤ X ^ 2 := by
  refine le_trans (Nat.mul_le_mul_right _ ?_) (card_quot X p K (by omega) (by omega))
  exact Nat.mul_le_mul hp (Nat.pow_le_pow_left hK 2)

/-- The number of exceptional numbers up to `X` is at most about `X^2 / (2 * 10^38)`. -/
theorem card_exceptional (X : ℕ) :
    2 * 26087635650665564424 ^ 2 * ((Finset.Icc 1 X).filter Exceptional).card ≤ 7 * X ^ 2 := by
  have hsub : (Finset.Icc 1 X).filter Exceptional ⊆
      ([(2, 26087635650665564424), (3, 36893488147419103231), (3, 36893488147419103232), (5, 45185110396297924511),
        (5, 45185110396297924512), (7, 50518489208477310479), (7, 50518489208477310480)] : List (ℕ × ℕ)).toFinset.biUnion
        (fun q => (Finset.Icc 1 X).filter (fun x => ∃ m, x / (q.1 * m) = q.2)) := by
    intro x hx
    obtain ⟨h1, m, h2⟩ := Finset.mem_filter.1 hx
    rw [Finset.mem_biUnion]
    rcases h2 with ⟨-, h⟩ | ⟨-, h | h⟩ | ⟨-, h | h⟩ | ⟨-, h | h⟩
    · exact ⟨(2, 26087635650665564424), by simp, Finset.mem_filter.2 ⟨h1, m, h⟩⟩
    · exact ⟨(3, 36893488147419103231), by simp, Finset.mem_filter.2 ⟨h1, m, h⟩⟩
    · exact ⟨(3, 36893488147419103232), by simp, Finset.mem_filter.2 ⟨h1, m, h⟩⟩
    · exact ⟨(5, 45185110396297924511), by simp, Finset.mem_filter.2 ⟨h1, m, h⟩⟩
    · exact ⟨(5, 45185110396297924512), by simp, Finset.mem_filter.2 ⟨h1, m, h⟩⟩
    · exact ⟨(7, 50518489208477310479), by simp, Finset.mem_filter.2 ⟨h1, m, h⟩⟩
    · exact ⟨(7, 50518489208477310480), by simp, Finset.mem_filter.2 ⟨h1, m, h⟩⟩
  have h1 := le_trans (Finset.card_le_card hsub) Finset.card_biUnion_le
  refine le_trans (Nat.mul_le_mul_left _ h1) ?_
  rw [Finset.mul_sum]
  refine le_trans (Finset.sum_le_card_nsmul _ _ (X ^ 2) (fun q hq => ?_)) ?_
  · simp only [List.mem_toFinset, List.mem_cons, List.not_mem_nil, or_false] at hq
    rcases hq with rfl | rfl | rfl | rfl | rfl | rfl | rfl <;> exact card_quot_le X _ _ (by norm_num) (by norm_num)
  · rw [smul_eq_mul]
    refine Nat.mul_le_mul_right _ ?_
    exact le_trans (List.toFinset_card_le _) (by simp)

/-- Up to every bound `X ≤ 5 * 10^29` the result of `pi` with the default tuning factor is right except for at most one number in
`3 * 10^8`; the exceptions do not depend on the number of threads, the schedules and the timings. -/
theorem C01_almost_all_partial (X : ℕ) (hX : X ≤ 5 * 10 ^ 29) :
    ∃ S : Finset ℕ, 3 * 10 ^ 8 * S.card ≤ X ∧ ∀ x ≤ X, x ∉ S → ∀ (e : Pi.Env) (threads : ℤ), e.Valid → 1 ≤ threads →
      e.alpha.lt (.fin 1) = true → e.lib.Accurate → Ok (runPi e x threads) (fun r => r.val = primeSum x) := by
  refine ⟨(Finset.Icc 1 X).filter Exceptional, ?_, fun x hx hS e threads hv hth hd hl => ?_⟩
  · have h := card_exceptional X
    generalize ((Finset.Icc 1 X).filter Exceptional).card = k at *
    rcases Nat.eq_zero_or_pos X with rfl | h0
    · rw [show 7 * 0 ^ 2 = 0 from rfl] at h
      have : k = 0 := by
        rcases Nat.eq_zero_or_pos k with h1 | h1
        · exact h1
        · have : 0 < 2 * 26087635650665564424 ^ 2 * k := by positivity
          omega
      simp [this]
    · have h2 : 7 * X ^ 2 ≤ 7 * (5 * 10 ^ 29) * X := by
        rw [pow_two, ← mul_assoc]
        exact Nat.mul_le_mul_right _ (Nat.mul_le_mul_left _ hX)
      have h3 : 7 * (5 * 10 ^ 29) * (3 * 10 ^ 8 * k) ≤ 2 * 26087635650665564424 ^ 2 * k := by
        rw [← mul_assoc]
        exact Nat.mul_le_mul_right _ (by norm_num)
      exact Nat.le_of_mul_le_mul_left (le_trans h3 (le_trans h h2)) (by norm_num)
  · rcases Nat.eq_zero_or_pos x with rfl | h0
    · exact C01_pi_exceptional_partial e 0 threads hv hth (Or.inl (by norm_num)) (by
        rw [← exceptional_iff]; decide +kernel)
    · refine C01_pi_exceptional_partial e x threads hv hth (Or.inr ⟨by omega, hd, hl⟩) (fun hc => hS ?_)
      exact Finset.mem_filter.2 ⟨Finset.mem_Icc.2 ⟨h0, hx⟩, hc⟩

end

/-! ## The wrong results below `7.8 * 10^20` -/

/-- How many times `2^128` the result is too large, for `x < 782629069519966932720`. -/
def excess (x : ℕ) : ℕ :=
  if x / 2 = 26087635650665564424 then 1
  else if x / 3 = 36893488147419103231 ∨ x / 3 = 36893488147419103232 then 2
  else if x / 5 = 45185110396297924511 ∨ x / 5 = 45185110396297924512 then 4
  else if x / 7 = 50518489208477310479 ∨ x / 7 = 50518489208477310480 then 6
  else 0

/-- What `phi_sum(x, 6)` returns, checked by evaluation. -/
def phiExcess (x : ℕ) : Bool := (phiSumM x 6).toOption.map I256.val == some ((phiRec 6 x : ℤ) + excess x * 2 ^ 128)

theorem phiExcess_ok {x : ℕ} (h : phiExcess x = true) : Ok (phiSumM x 6) (fun r => r.val = phiSum x 6 + (excess x : ℤ) * 2 ^ 128) := by
  have h := beq_iff_eq.1 h
  rw [phiRec_eq _ _ (by norm_num)] at h
  cases hr : phiSumM x 6 with
  | error e => rw [hr] at h; simp [Except.toOption] at h
  | ok r =>
    rw [hr] at h
    simp only [Except.toOption, Option.map_some, Option.some.injEq] at h
    exact Ok.ok h

/-- The numbers with the quotient `K` for the divisor `d`. -/
def phiExcessAll (d K : ℕ) : Bool := (List.range d).all (fun i => phiExcess (d * K + i))

theorem phiExcess_of_quot {x d K : ℕ} (hd : 0 < d) (h : phiExcessAll d K = true) (hq : x / d = K) : phiExcess x = true := by
  have := List.all_eq_true.1 h (x % d) (List.mem_range.2 (Nat.mod_lt _ hd))
  rwa [← hq, Nat.div_add_mod] at this

theorem excess_2_4 : [2, 6, 10, 14, 18, 22, 26].all (fun d => phiExcessAll d 26087635650665564424) = true := by decide +kernel

theorem excess_3_1 : [3, 15, 21].all (fun d => phiExcessAll d 36893488147419103231) = true := by decide +kernel

theorem excess_3_2 : [3, 15, 21].all (fun d => phiExcessAll d 36893488147419103232) = true := by decide +kernel

theorem excess_5_1 : [5].all (fun d => phiExcessAll d 45185110396297924511) = true := by decide +kernel

theorem excess_5_2 : [5].all (fun d => phiExcessAll d 45185110396297924512) = true := by decide +kernel

theorem excess_7_9 : [7].all (fun d => phiExcessAll d 50518489208477310479) = true := by decide +kernel

theorem excess_7_0 : [7].all (fun d => phiExcessAll d 50518489208477310480) = true := by decide +kernel

/-- One quotient: only the listed multiples of `p` are divisors. -/
theorem phiExcess_case {x p m K M : ℕ} {l : List ℕ} (hp : 0 < p) (hK : 26087635650665564424 ≤ K) (hx : x < 782629069519966932720)
    (hl : (List.range 15).all (fun m => !(decide (0 < m) && decide (p * m * K < 782629069519966932720) && Nat.gcd m M == 1) ||
      l.contains (p * m)) = true)
    (h : l.all (fun d => phiExcessAll d K) = true) (hm : Nat.Coprime m M) (hq : x / (p * m) = K) (hp2 : 2 ≤ p) : phiExcess x = true := by
  have hm0 : 0 < m := by
    rcases Nat.eq_zero_or_pos m with rfl | h0
    · simp at hq; omega
    · exact h0
  have h1 : p * m * K ≤ x := by rw [← hq]; exact Nat.mul_div_le _ _
  have h2 : m < 15 := by
    by_contra hc
    have : 2 * 15 * 26087635650665564424 ≤ p * m * K := Nat.mul_le_mul (Nat.mul_le_mul hp2 (by omega)) hK
    omega
  have h3 := List.all_eq_true.1 hl m (List.mem_range.2 h2)
  have h4 : (decide (0 < m) && decide (p * m * K < 782629069519966932720) && Nat.gcd m M == 1) = true := by
    simp only [Bool.and_eq_true, decide_eq_true_eq, beq_iff_eq]
    exact ⟨⟨hm0, by omega⟩, hm⟩
  rw [h4] at h3
  exact phiExcess_of_quot (Nat.mul_pos hp hm0) (List.all_eq_true.1 h _ (List.contains_iff_mem.1 (by simpa using h3))) hq

/-- `phi_sum(x, 6)` below `782629069519966932720`: right except for 32 numbers. -/
theorem C17_exact_partial {x : ℕ} (hx : x < 782629069519966932720) :
    Ok (phiSumM x 6) (fun r => r.val = phiSum x 6 + (excess x : ℤ) * 2 ^ 128) := by
  by_cases hE : Exceptional x
  · apply phiExcess_ok
    obtain ⟨m, ⟨hm, h⟩ | ⟨hm, h | h⟩ | ⟨hm, h | h⟩ | ⟨hm, h | h⟩⟩ := hE
    · exact phiExcess_case (by norm_num) (by norm_num) hx (by decide +kernel) excess_2_4 hm h (by norm_num)
    · exact phiExcess_case (by norm_num) (by norm_num) hx (by decide +kernel) excess_3_1 hm h (by norm_num)
    · exact phiExcess_case (by norm_num) (by norm_num) hx (by decide +kernel) excess_3_2 hm h (by norm_num)
    · exact phiExcess_case (by norm_num) (by norm_num) hx (by decide +kernel) excess_5_1 hm h (by norm_num)
    · exact phiExcess_case (by norm_num) (by norm_num) hx (by decide +kernel) excess_5_2 hm h (by norm_num)
    · exact phiExcess_case (by norm_num) (by norm_num) hx (by decide +kernel) excess_7_9 hm h (by norm_num)
    · exact phiExcess_case (by norm_num) (by norm_num) hx (by decide +kernel) excess_7_0 hm h (by norm_num)
  · have h0 : excess x = 0 := by
      unfold excess
      rw [if_neg (fun h => hE ⟨1, Or.inl ⟨by norm_num, h⟩⟩), if_neg (fun h => hE ⟨1, Or.inr (Or.inl ⟨by norm_num, h⟩)⟩),
        if_neg (fun h => hE ⟨1, Or.inr (Or.inr (Or.inl ⟨by norm_num, h⟩))⟩),
        if_neg (fun h => hE ⟨1, Or.inr (Or.inr (Or.inr ⟨by norm_num, h⟩))⟩)]
    rw [h0]
    refine (phiSumM_ok x 6 (by omega) (prm_small le_rfl) ((noWindow_iff x).2 hE)).mono (fun r hr => ?_)
    rw [hr]; simp

theorem rough_six {n : ℕ} (h2 : 2 ≤ n) (h : Rough 6 n) : 17 ≤ n := by
  by_contra hc
  have h1 := rough_iff.1 h n.minFac (Nat.minFac_prime (by omega)) (Nat.minFac_dvd n)
  have h3 : Nat.primeCounting n.minFac ≤ Nat.primeCounting 16 := Nat.monotone_primeCounting (le_trans (Nat.minFac_le (by omega)) (by omega))
  have h4 : Nat.primeCounting 16 = 6 := by decide +kernel
  omega

/-- Below `782629069519966932720` (about `7.8 * 10^20`) exactly 32 results of `pi` are wrong, whatever the tuning factor, the number
of threads, the schedules and the timings: the two numbers `x` with `x / 2 = 26087635650665564424`, six with `x / 3`, ten with `x / 5`
and fourteen with `x / 7` equal to one of the numbers in `excess`.  There the result is too large by `2^128` times `1`, `2`, `4` or
`6`. -/
theorem C01_exact_partial (e : Pi.Env) (x : ℕ) (threads : ℤ) (hv : e.Valid) (hth : 1 ≤ threads) (hx : x < 782629069519966932720) :
    Ok (runPi e x threads) (fun r => r.val = primeSum x + (excess x : ℤ) * 2 ^ 128) := by
  by_cases hs : x < 52175271301331128848
  · have h0 : excess x = 0 := by
      unfold excess
      rw [if_neg (by omega), if_neg (by omega), if_neg (by omega), if_neg (by omega)]
    rw [h0]
    refine (C01_pi_reach_partial e x threads hv hth (Or.inl (by omega)) (Or.inl hs)).mono (fun r hr => ?_)
    rw [hr]; simp
  push Not at hs
  have hz := C01_z_bound e x hv.fp (by omega) (by omega)
  obtain ⟨hr1, hr2⟩ := Pi.y_range (e := e) (x := x) hv.fp (by omega) (by omega)
  obtain ⟨y1, y2, y3⟩ := Pi.y_facts (e := e) (x := x) hv.fp (by omega) (by omega)
  have hc : min 6 (Nat.primeCounting (e.y x)) = 6 := by
    have h13 : 13 ≤ e.y x := le_trans (le_iroot (by norm_num) (by omega)) hr1
    have : Nat.primeCounting 13 ≤ Nat.primeCounting (e.y x) := Nat.monotone_primeCounting h13
    have h8 : Nat.primeCounting 13 = 6 := by decide +kernel
    omega
  have hs1 := s1_off (y := e.y x) (C17_exact_partial hx) (Or.inl (by omega))
    (fun n hn hr => noWindow_of_lt 6 (by
      have : x / n ≤ x / 17 := Nat.div_le_div_left (rough_six hn hr) (by norm_num)
      unfold badK; omega)) (by omega) (prm_small le_rfl) (by nlinarith) y1 hv.schedS1
  refine (Pi.pi_off hv (by omega) (by omega) hz hth (Pi.le_limit hv.fp (by omega) (by omega)) (E := (excess x : ℤ) * 2 ^ 128)
    (by rw [hc]; exact hs1)).mono (fun r hr => ?_)
  refine LawfulRes.rep_val (R := I256) r _ hr (show I256.InRange _ from ?_)
  have h1 := primeSum_le_sq x
  have h2 : x * x ≤ 2 ^ 70 * 2 ^ 70 := Nat.mul_le_mul (by omega) (by omega)
  have h3 : excess x ≤ 6 := by unfold excess; split_ifs <;> omega
  constructor <;> omega

/-- The numbers below `782629069519966932720` for which the result is wrong. -/
theorem excess_ne_zero_iff (x : ℕ) : excess x ≠ 0 ↔ x / 2 = 26087635650665564424 ∨
    (36893488147419103231 ≤ x / 3 ∧ x / 3 ≤ 36893488147419103232) ∨ (45185110396297924511 ≤ x / 5 ∧ x / 5 ≤ 45185110396297924512) ∨
    (50518489208477310479 ≤ x / 7 ∧ x / 7 ≤ 50518489208477310480) := by
  unfold excess
  split_ifs <;> omega

/-- Non-vacuity: the two numbers from `52175271301331128848` on, and one of the fourteen. -/
example : excess 52175271301331128849 = 1 ∧ excess 52175271301331128850 = 0 ∧ excess 353629424459341173360 = 6 := by decide +kernel

example : Ok (runPi (exampleEnv 3 false) (353629424459341173360 : ℕ) 4)
    (fun r => r.val = primeSum 353629424459341173360 + 6 * 2 ^ 128) :=
  C01_exact_partial _ _ _ (exampleEnv_valid _ _) (by norm_num) (by norm_num)

/-- Non-vacuity of `C01_powers_of_ten`. -/
example : Ok (runPi (exampleEnv 3 false) ((10 ^ 26 : ℕ) : ℤ) 4) (fun r => r.val = primeSum (10 ^ 26)) :=
  C01_powers_of_ten _ _ _ (exampleEnv_valid _ _) (by norm_num) (Or.inl (by norm_num))

/-! ## What the program prints -/

namespace Main
open Spec Calc.Spec

/-- The program prints the result of `pi`. -/
theorem main_of_runPi {e : Env} {args : List (List Char)} {pco : Options} {set : Settings} {x k : ℕ}
    (h : Accepted e args pco set) (ho : IsPi pco.option) (hx : pco.x = x) (hk : k < 2 ^ 200)
    (hr : Ok (runPi (algEnv e set pco.option) x (getNumThreads e.ompMax set.threads)) (fun r => r.val = k)) :
    main e args = .ok (.result (decimal k)) := by
  obtain ⟨tiny, h1, _⟩ := PhiTiny.build_ok
  obtain ⟨r, h2, h3⟩ := hr
  have hr : run (algEnv e set pco.option) tiny pco.option pco.x (getNumThreads e.ompMax set.threads) = .ok r := by
    rw [← h2]
    show _ = (do let tiny ← PhiTiny.build; Pi.pi _ tiny x _)
    rw [h1, ok_bind, hx]
    unfold IsPi at ho
    simp only [List.mem_cons, List.not_mem_nil, or_false] at ho
    rcases ho with h | h | h <;> rw [h] <;> rfl
  have h6 : r.print = .ok (decimal k) := by
    rw [I256.C38_print256_partial r (by rw [h3]; omega), h3]
  obtain ⟨out, h4, h5⟩ := main_accepted h (P := fun out => out = .result (decimal k))
    ⟨tiny, h1, r, hr, _, h6, by
      unfold IsPi at ho
      simp only [List.mem_cons, List.not_mem_nil, or_false] at ho
      rcases ho with h | h | h <;> rw [h] <;> rfl⟩
  rw [h4, h5]

/-- What `primesum x` prints for every `x < 782629069519966932720`: the sum of the primes in decimal, except for the 32 numbers for
which `excess x` is not zero. -/
theorem C53_exact_partial (e : Env) (args : List (List Char)) (pco : Options) (set : Settings) (x : ℕ)
    (h : Accepted e args pco set) (homp : 1 ≤ e.ompMax) (ho : IsPi pco.option) (hx : pco.x = x)
    (hv : (algEnv e set pco.option).Valid) (hb : x < 782629069519966932720) :
    main e args = .ok (.result (decimal ((primeSum x + excess x * 2 ^ 128 : ℕ) : ℤ))) := by
  have h1 := primeSum_le_sq x
  have h2 : x * x ≤ 2 ^ 70 * 2 ^ 70 := Nat.mul_le_mul (by omega) (by omega)
  have h3 : excess x ≤ 6 := by unfold excess; split_ifs <;> omega
  refine main_of_runPi h ho hx (by omega) ((C01_exact_partial _ x _ hv (threads_pos h homp) hb).mono (fun r hr => ?_))
  rw [hr]
  push_cast
  rfl

/-- What the program prints for a power of ten: the sum of the primes, for `10^n`, `n ≤ 26`, with every tuning factor, up to `10^29`
with the default one. -/
theorem C53_powers_of_ten (e : Env) (args : List (List Char)) (pco : Options) (set : Settings) (n : ℕ)
    (h : Accepted e args pco set) (homp : 1 ≤ e.ompMax) (ho : IsPi pco.option) (hx : pco.x = (10 ^ n : ℕ))
    (hv : (algEnv e set pco.option).Valid)
    (hn : n ≤ 26 ∨ (n ≤ 29 ∧ (algEnv e set pco.option).alpha.lt (.fin 1) = true ∧ (algEnv e set pco.option).lib.Accurate)) :
    main e args = .ok (.result (decimal (primeSum (10 ^ n)))) := by
  have h1 := primeSum_le_sq (10 ^ n)
  have h2 : 10 ^ n ≤ 10 ^ 29 := Nat.pow_le_pow_right (by norm_num) (by omega)
  have h3 : 10 ^ n * 10 ^ n ≤ 10 ^ 29 * 10 ^ 29 := Nat.mul_le_mul h2 h2
  exact main_of_runPi h ho hx (lt_of_le_of_lt (le_trans h1 h3) (by norm_num)) (C01_powers_of_ten _ n _ hv (threads_pos h homp) hn)

/-- Non-vacuity: `primesum 1e25`. -/
example : main exampleMainEnv ["1e25".toList] = .ok (.result (decimal (primeSum (10 ^ 25)))) := by
  have h : Accepted exampleMainEnv ["1e25".toList] ⟨10 ^ 25, .pi, false⟩ {} := (C41_starts _ _ _ _).1 rfl
  exact C53_powers_of_ten exampleMainEnv _ _ _ 25 h (by decide) (by simp [IsPi]) (by norm_num) (exampleMainEnv_valid h _) (Or.inl (by norm_num))

end Main
end PS
