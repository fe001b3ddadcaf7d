import Verif.Spec.Basic
import Mathlib.Tactic.Ring
import Mathlib.Tactic.Linarith
import Mathlib.NumberTheory.Bertrand

namespace PS

open Finset Nat
open scoped Classical

local notation "π" => Nat.primeCounting

theorem prm_prime (i : ℕ) : (prm i).Prime := Nat.prime_nth_prime _

theorem prm_pos (i : ℕ) : 0 < prm i := (prm_prime i).pos

theorem two_le_prm (i : ℕ) : 2 ≤ prm i := (prm_prime i).two_le

theorem prm_lt_prm {i j : ℕ} (hi : 1 ≤ i) (h : i < j) : prm i < prm j :=
  Nat.nth_strictMono Nat.infinite_setOfPred_prime (by omega)

theorem prm_le_prm {i j : ℕ} (h : i ≤ j) : prm i ≤ prm j :=
  Nat.nth_monotone Nat.infinite_setOfPred_prime (by omega)

theorem prm_lt_iff {i j : ℕ} (hi : 1 ≤ i) (_hj : 1 ≤ j) : prm i < prm j ↔ i < j := by
  constructor
  · intro h
    by_contra h'
    have := prm_le_prm (i := j) (j := i) (by omega)
    omega
  · exact prm_lt_prm hi

theorem prm_le_iff {i j : ℕ} (hi : 1 ≤ i) (hj : 1 ≤ j) : prm i ≤ prm j ↔ i ≤ j := by
  have := prm_lt_iff hj hi
  omega

theorem prm_inj {i j : ℕ} (hi : 1 ≤ i) (hj : 1 ≤ j) (h : prm i = prm j) : i = j := by
  have h1 := prm_le_iff hi hj
  have h2 := prm_le_iff hj hi
  omega

theorem pi_le_self' (n : ℕ) : π n ≤ n := by
  rcases Nat.eq_zero_or_pos n with rfl | h
  · simp
  · have : π n ≤ π (n + 0) := le_rfl
    rw [Nat.primeCounting, Nat.primeCounting', Nat.count_eq_card_filter_range]
    refine le_trans (Finset.card_le_card (t := Finset.Icc 1 n) ?_) (by simp)
    intro m hm
    simp only [Finset.mem_filter, Finset.mem_range, Finset.mem_Icc] at hm ⊢
    have := hm.2.two_le
    omega

theorem pi_prm {i : ℕ} (hi : 1 ≤ i) : π (prm i) = i := by
  unfold prm Nat.primeCounting Nat.primeCounting'
  rw [Nat.count_succ, Nat.count_nth_of_infinite Nat.infinite_setOfPred_prime,
    if_pos (Nat.prime_nth_prime _)]
  omega

theorem prm_le_iff_le_pi {i n : ℕ} (hi : 1 ≤ i) : prm i ≤ n ↔ i ≤ π n := by
  constructor
  · intro h
    have := Nat.monotone_primeCounting h
    rwa [pi_prm hi] at this
  · intro h
    unfold Nat.primeCounting Nat.primeCounting' at h
    have : i - 1 < Nat.count Nat.Prime (n + 1) := by omega
    have := Nat.nth_lt_of_lt_count this
    unfold prm
    omega

theorem lt_prm_iff_pi_lt {i n : ℕ} (hi : 1 ≤ i) : n < prm i ↔ π n < i := by
  have := prm_le_iff_le_pi (n := n) hi
  omega

theorem prm_pi {p : ℕ} (hp : p.Prime) : prm (π p) = p := by
  unfold prm Nat.primeCounting Nat.primeCounting'
  rw [Nat.count_succ, if_pos hp]
  simpa using Nat.nth_count hp

theorem pi_pos {p : ℕ} (hp : 2 ≤ p) : 1 ≤ π p := by
  have h2 : prm 1 ≤ p := by
    have : prm 1 = 2 := by simp [prm, Nat.nth_prime_zero_eq_two]
    omega
  exact (prm_le_iff_le_pi le_rfl).1 h2

theorem pi_lt_two {n : ℕ} (h : n < 2) : π n = 0 := by
  interval_cases n <;> rfl

@[simp] theorem prm_one : prm 1 = 2 := by simp [prm, Nat.nth_prime_zero_eq_two]

theorem pi_mono {m n : ℕ} (h : m ≤ n) : π m ≤ π n := Nat.monotone_primeCounting h

/-- The primes strictly below: `π (prm i - 1) = i - 1`. -/
theorem pi_prm_pred {i : ℕ} (hi : 1 ≤ i) : π (prm i - 1) = i - 1 := by
  have h := lt_prm_iff_pi_lt (n := prm i - 1) hi
  have h0 := prm_pos i
  have : π (prm i - 1) < i := h.1 (by omega)
  by_cases h1 : i = 1
  · omega
  have h2 : prm (i - 1) ≤ prm i - 1 := by
    have := prm_lt_prm (i := i - 1) (j := i) (by omega) (by omega)
    omega
  have := (prm_le_iff_le_pi (i := i - 1) (by omega)).1 h2
  omega

theorem exists_prm {p : ℕ} (hp : p.Prime) : ∃ i, 1 ≤ i ∧ prm i = p :=
  ⟨π p, pi_pos hp.two_le, prm_pi hp⟩

/-! ## Rough numbers -/

theorem rough_iff {a n : ℕ} : Rough a n ↔ ∀ p, p.Prime → p ∣ n → a < π p := by
  constructor
  · intro h p hp hd
    by_contra hc
    exact h (π p) (pi_pos hp.two_le) (by omega) (by rwa [prm_pi hp])
  · intro h i hi hia hd
    have := h _ (prm_prime i) hd
    rw [pi_prm hi] at this
    omega

/-- Rough in terms of the value of the primes. -/
theorem rough_pi_iff {y n : ℕ} : Rough (π y) n ↔ ∀ p, p.Prime → p ∣ n → y < p := by
  rw [rough_iff]
  constructor
  · intro h p hp hd
    have := h p hp hd
    by_contra hc
    have := pi_mono (show p ≤ y by omega)
    omega
  · intro h p hp hd
    have h1 := h p hp hd
    have h2 := lt_prm_iff_pi_lt (n := y) (pi_pos hp.two_le)
    rw [prm_pi hp] at h2
    exact h2.1 h1

theorem rough_iff_lt_prm {b n : ℕ} (hb : 1 ≤ b) :
    Rough b n ↔ ∀ p, p.Prime → p ∣ n → prm b < p := by
  have := rough_pi_iff (y := prm b) (n := n)
  rwa [pi_prm hb] at this

@[simp] theorem rough_zero (n : ℕ) : Rough 0 n := fun i h1 h2 => by omega

@[simp] theorem rough_one (a : ℕ) : Rough a 1 := by
  intro i _ _ hd
  have := two_le_prm i
  have := Nat.le_of_dvd one_pos hd
  omega

theorem Rough.anti {a b n : ℕ} (h : Rough b n) (hab : a ≤ b) : Rough a n :=
  fun i h1 h2 => h i h1 (by omega)

theorem rough_succ {a n : ℕ} : Rough (a + 1) n ↔ Rough a n ∧ ¬ prm (a + 1) ∣ n := by
  constructor
  · intro h
    exact ⟨h.anti (by omega), h _ (by omega) le_rfl⟩
  · rintro ⟨h1, h2⟩ i hi hia
    rcases Nat.lt_or_ge i (a + 1) with h | h
    · exact h1 i hi (by omega)
    · have : i = a + 1 := by omega
      subst this; exact h2

theorem rough_mul {a m n : ℕ} : Rough a (m * n) ↔ Rough a m ∧ Rough a n := by
  constructor
  · intro h
    exact ⟨fun i h1 h2 hd => h i h1 h2 (hd.mul_right _), fun i h1 h2 hd => h i h1 h2 (hd.mul_left _)⟩
  · rintro ⟨h, h'⟩ i h1 h2 hd
    rcases (prm_prime i).dvd_mul.1 hd with hd | hd
    · exact h i h1 h2 hd
    · exact h' i h1 h2 hd

theorem rough_prime {a p : ℕ} (hp : p.Prime) : Rough a p ↔ a < π p := by
  rw [rough_iff]
  constructor
  · intro h; exact h p hp dvd_rfl
  · intro h q hq hd
    rwa [(Nat.prime_dvd_prime_iff_eq hq hp).1 hd]

theorem rough_prm {a b : ℕ} (hb : 1 ≤ b) : Rough a (prm b) ↔ a < b := by
  rw [rough_prime (prm_prime b), pi_prm hb]

theorem rough_minFac {a n : ℕ} (hn : n ≠ 1) : Rough a n ↔ a < π n.minFac := by
  rw [rough_iff]
  constructor
  · intro h; exact h _ (Nat.minFac_prime hn) (Nat.minFac_dvd n)
  · intro h p hp hd
    have := Nat.minFac_le_of_dvd hp.two_le hd
    have := pi_mono this
    omega

theorem prm_small {c : ℕ} (hc : c ≤ 6) : prm c < 2 ^ 31 := by
  have : prm c ≤ 13 := by
    rcases Nat.eq_zero_or_pos c with rfl | h
    · exact le_trans (show prm 0 ≤ prm 1 from (prm_le_prm (by omega))) ((prm_le_iff_le_pi (by norm_num)).2 (by decide +kernel))
    · rw [prm_le_iff_le_pi h]
      have : π 13 = 6 := by decide +kernel
      omega
  omega

end PS
