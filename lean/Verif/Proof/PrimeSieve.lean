import Verif.Proof.Core
import Verif.Model.PrimeSieve

namespace PS

open Nat
open scoped Classical

local notation "π" => Nat.primeCounting

/-- `v` is a 1-indexed table of the first `n` primes. -/
def PrimeTable (v : Vec ℕ) (n : ℕ) : Prop :=
  v.size = n + 1 ∧ v.get 0 = 0 ∧ ∀ i, 1 ≤ i → i ≤ n → v.get i = prm i

/-- The first `n` primes are right. -/
def PrimePrefix (v : Vec ℕ) (n : ℕ) : Prop :=
  n + 1 ≤ v.size ∧ v.get 0 = 0 ∧ ∀ i, 1 ≤ i → i ≤ n → v.get i = prm i

theorem PrimeTable.pre {v : Vec ℕ} {n : ℕ} (h : PrimeTable v n) : PrimePrefix v n := ⟨h.1.ge, h.2⟩

theorem PrimePrefix.rd {v : Vec ℕ} {n i : ℕ} (h : PrimePrefix v n) (h1 : 1 ≤ i) (h2 : i ≤ n) :
    v.rd i = .ok (prm i) := by
  rw [Vec.rd_ok (by have := h.1; omega), h.2.2 i h1 h2]

theorem PrimePrefix.anti {v : Vec ℕ} {n k : ℕ} (h : PrimePrefix v n) (hk : k ≤ n) : PrimePrefix v k :=
  ⟨by have := h.1; omega, h.2.1, fun i h1 h2 => h.2.2 i h1 (by omega)⟩

/-- `prm 0` is 2. -/
theorem prm_pi_le (m : ℕ) : prm (π m) ≤ max m 2 := by
  rcases Nat.eq_zero_or_pos (π m) with h | h
  · rw [h]
    refine le_trans (prm_le_prm (show 0 ≤ 1 by omega)) ?_
    rw [prm_one]; exact le_max_right _ _
  · exact le_trans ((prm_le_iff_le_pi h).2 le_rfl) (le_max_left _ _)

theorem filter_prime_range (n : ℕ) :
    (List.range n).filter (fun p => decide p.Prime) =
      (List.range (Nat.count Nat.Prime n)).map (Nat.nth Nat.Prime) := by
  induction n with
  | zero => simp
  | succ n ih =>
    rw [List.range_succ, List.filter_append, ih, Nat.count_succ]
    by_cases h : n.Prime
    · rw [if_pos h, List.range_succ, List.map_append]
      simp [h, Nat.nth_count h]
    · simp [h]

theorem primeTable_cons (l : List ℕ) (n : ℕ) (hl : l = (List.range n).map (Nat.nth Nat.Prime)) :
    PrimeTable ⟨(0 :: l).toArray⟩ n := by
  subst hl
  refine ⟨by simp [Vec.size], by simp [Vec.get], ?_⟩
  intro i h1 h2
  obtain ⟨j, rfl⟩ : ∃ j, i = j + 1 := ⟨i - 1, by omega⟩
  have hj : j < n := by omega
  simp [Vec.get, prm, hj]

theorem generatePrimes_table (max : ℕ) : PrimeTable (generatePrimes max) (π max) :=
  primeTable_cons _ _ (filter_prime_range (max + 1))

theorem nextPrime_spec (n : ℕ) : n < nextPrime n ∧ (nextPrime n).Prime :=
  Nat.find_spec (Nat.exists_infinite_primes (n + 1))

theorem nextPrime_min {n q : ℕ} (hq : q.Prime) (h : n < q) : nextPrime n ≤ q :=
  Nat.find_min' (Nat.exists_infinite_primes (n + 1)) ⟨h, hq⟩

theorem nextPrime_eq (n : ℕ) : nextPrime n = prm (π n + 1) := by
  have h := nextPrime_spec n
  have h1 : π n < π (nextPrime n) := by
    have := (lt_prm_iff_pi_lt (n := n) (pi_pos h.2.two_le)).1
    rw [prm_pi h.2] at this
    exact this h.1
  apply le_antisymm
  · apply nextPrime_min (prm_prime _)
    exact (lt_prm_iff_pi_lt (by omega)).2 (by omega)
  · rw [prm_le_iff_le_pi (by omega)]; omega

theorem primesFrom_eq (k n : ℕ) (p : ℕ) (hp : π p = k) :
    primesFrom p n = (List.range n).map (fun i => Nat.nth Nat.Prime (k + i)) := by
  induction n generalizing p k with
  | zero => simp [primesFrom]
  | succ n ih =>
    have e : nextPrime p = prm (k + 1) := by rw [nextPrime_eq, hp]
    rw [primesFrom, ih (k + 1) (nextPrime p) (by rw [e, pi_prm (by omega)]), List.range_succ_eq_map,
      List.map_cons, List.map_map, e]
    congr 1
    apply List.map_congr_left
    intro i _
    simp only [Function.comp]
    congr 1
    omega

theorem generateNPrimes_table (n : ℕ) : PrimeTable (generateNPrimes n) n := by
  apply primeTable_cons
  rw [primesFrom_eq 0 n 0 (by rfl)]
  simp

theorem PrimeTable.rd {v : Vec ℕ} {n i : ℕ} (h : PrimeTable v n) (h1 : 1 ≤ i) (h2 : i ≤ n) :
    v.rd i = .ok (prm i) := by
  rw [Vec.rd_ok (by rw [h.1]; omega), h.2.2 i h1 h2]

theorem prevPrime_spec (n : ℕ) :
    (prevPrime n = 0 ∧ ∀ q, q.Prime → ¬ q < n) ∨
    ((prevPrime n).Prime ∧ prevPrime n < n ∧ ∀ q, q.Prime → q < n → q ≤ prevPrime n) := by
  unfold prevPrime
  induction n with
  | zero => left; simp
  | succ n ih =>
    rw [List.range_succ, List.filter_append]
    by_cases h : n.Prime
    · right
      simp only [h, List.filter_cons, decide_true, if_true, List.filter_nil]
      rw [List.getLastD_eq_getLast?]
      simp [h]
    · simp only [List.filter_cons, h, decide_false, Bool.false_eq_true, if_false, List.filter_nil,
        List.append_nil]
      rcases ih with ⟨h1, h2⟩ | ⟨h1, h2, h3⟩
      · left
        refine ⟨h1, fun q hq hlt => ?_⟩
        rcases Nat.lt_or_ge q n with h' | h'
        · exact h2 q hq h'
        · exact h (by rwa [show n = q by omega])
      · right
        refine ⟨h1, by omega, fun q hq hlt => ?_⟩
        rcases Nat.lt_or_ge q n with h' | h'
        · exact h3 q hq h'
        · exact absurd (by rwa [show n = q by omega]) h

/-- Small values of `prm`. -/
theorem prm_of_count {i p : ℕ} (hp : p.Prime) (h : π p = i) : prm i = p := by rw [← h, prm_pi hp]

theorem prm_2 : prm 2 = 3 := prm_of_count (by decide) (by decide)
theorem prm_3 : prm 3 = 5 := prm_of_count (by decide) (by decide)
theorem prm_4 : prm 4 = 7 := prm_of_count (by decide) (by decide)
theorem prm_5 : prm 5 = 11 := prm_of_count (by decide) (by decide)
theorem prm_6 : prm 6 = 13 := prm_of_count (by decide) (by decide)
theorem prm_7 : prm 7 = 17 := prm_of_count (by decide) (by decide)
theorem prm_8 : prm 8 = 19 := prm_of_count (by decide) (by decide)
theorem prm_9 : prm 9 = 23 := prm_of_count (by decide) (by decide)

theorem phiSum_le (x a : ℕ) : phiSum x a * 2 ≤ x * (x + 1) := by
  have := phiSum_anti (x := x) (a := 0) (b := a) (by omega)
  have := phiSum_zero_mul_two x
  omega

/-- If `1 ≤ x < p_{a+1}` only 1 survives. -/
theorem filter_rough_small {x a : ℕ} (hx : 1 ≤ x) (h : x < prm (a + 1)) :
    (Finset.Icc 1 x).filter (Rough a) = {1} := by
  ext n
  simp only [Finset.mem_filter, Finset.mem_Icc, Finset.mem_singleton]
  constructor
  · rintro ⟨⟨h1, h2⟩, h3⟩
    by_contra hn
    have hp := Nat.minFac_prime hn
    have := (rough_minFac hn).1 h3
    have hle := Nat.minFac_le (show 0 < n by omega)
    have : prm (a + 1) ≤ n.minFac := by
      rw [prm_le_iff_le_pi (by omega)]; omega
    omega
  · rintro rfl
    exact ⟨⟨le_rfl, hx⟩, rough_one a⟩

theorem phiSum_eq_one {x a : ℕ} (hx : 1 ≤ x) (h : x < prm (a + 1)) : phiSum x a = 1 := by
  unfold phiSum
  rw [filter_rough_small hx h]
  simp

theorem phi_eq_one {x a : ℕ} (hx : 1 ≤ x) (h : x < prm (a + 1)) : phi x a = 1 := by
  unfold phi
  rw [filter_rough_small hx h]
  simp

theorem phiSum_pos {x a : ℕ} (hx : 1 ≤ x) : 1 ≤ phiSum x a := by
  unfold phiSum
  have : 1 ∈ (Finset.Icc 1 x).filter (Rough a) := by simp [hx]
  exact Finset.single_le_sum (f := fun n => n) (fun _ _ => Nat.zero_le _) this

end PS
