import Verif.Proof.P2
import Verif.Proof.Density

/-! The terms that `P2` adds and subtracts. -/

namespace PS
open Finset
open scoped Classical
local notation "π" => Nat.primeCounting

/-- A prime is 2, 3, 5 or coprime to 30. -/
theorem prime_rough3 {p : ℕ} (hp : p.Prime) : p = 2 ∨ p = 3 ∨ p = 5 ∨ Rough 3 p := by
  by_cases h : 3 < π p
  · right; right; right
    rw [rough_iff]
    intro r hr hd
    rw [(Nat.prime_dvd_prime_iff_eq hr hp).1 hd]
    exact h
  · have h1 : p < 7 := by
      rw [← prm_4]
      exact (lt_prm_iff_pi_lt (by omega)).2 (by omega)
    interval_cases p <;> first | omega | (exfalso; revert hp; decide)

theorem sum_primes_le (f : ℕ → ℕ) (m : ℕ) : ∑ p ∈ (Icc 1 m).filter Nat.Prime, f p ≤
    ∑ n ∈ (Icc 1 m).filter (Rough 3), f n + (f 2 + f 3 + f 5) := by
  have h : ∑ p ∈ (Icc 1 m).filter Nat.Prime, f p ≤ ∑ p ∈ (Icc 1 m).filter (Rough 3) ∪ {2, 3, 5}, f p := by
    apply Finset.sum_le_sum_of_subset
    intro p hp
    rw [mem_filter] at hp
    rcases prime_rough3 hp.2 with h | h | h | h
    · subst h; simp
    · subst h; simp
    · subst h; simp
    · rw [mem_union, mem_filter]
      exact Or.inl ⟨hp.1, h⟩
  have h2 := Finset.sum_union_inter (s₁ := (Icc 1 m).filter (Rough 3)) (s₂ := {2, 3, 5}) (f := f)
  have h3 : ∑ n ∈ ({2, 3, 5} : Finset ℕ), f n = f 2 + f 3 + f 5 := by
    rw [Finset.sum_insert (by decide), Finset.sum_insert (by decide), Finset.sum_singleton, Nat.add_assoc]
  omega

theorem primeSum_eq_Icc (m : ℕ) : primeSum m = ∑ p ∈ (Icc 1 m).filter Nat.Prime, p := by
  unfold primeSum
  apply Finset.sum_congr _ (fun _ _ => rfl)
  ext p
  simp only [mem_filter, mem_range, mem_Icc]
  constructor
  · rintro ⟨h1, h2⟩; exact ⟨⟨h2.pos, by omega⟩, h2⟩
  · rintro ⟨h1, h2⟩; exact ⟨by omega, h2⟩

theorem primeSum_le_phi3 (m : ℕ) : primeSum m ≤ phiSum m 3 + 10 := by
  rw [primeSum_eq_Icc]
  exact sum_primes_le (fun p => p) m

theorem primeSum_small {m M : ℕ} (h : m ≤ M) : primeSum m * 60 ≤ 8 * ((M + 30) * (M + 60)) + 600 := by
  have h1 := primeSum_le_phi3 m
  have hd := phiSum_density m 3
  rw [primorial_three, totient_three] at hd
  have hk : m / 30 * 30 ≤ m := Nat.div_mul_le_self m 30
  have e1 : 900 * ((m / 30 + 1) * (m / 30 + 2)) ≤ (M + 30) * (M + 60) := by
    calc 900 * ((m / 30 + 1) * (m / 30 + 2)) = (m / 30 * 30 + 30) * (m / 30 * 30 + 60) := by ring
      _ ≤ _ := Nat.mul_le_mul (by omega) (by omega)
  omega

theorem sum_cubes (s : ℕ) : (∑ n ∈ Icc 1 s, n ^ 3) * 4 = (s * (s + 1)) ^ 2 := by
  induction s with
  | zero => simp
  | succ s ih => rw [Finset.sum_Icc_succ_top (by omega), Nat.add_mul, ih]; ring

namespace P2

theorem sum_p_primeSum {x s : ℕ} (hx : x < 2 ^ 63) (hs : s < 2 ^ 32) :
    (∑ p ∈ (Icc 1 s).filter Nat.Prime, p * primeSum (x / p)) * 2 ≤ 3 * 2 ^ 126 := by
  have h1 := sum_primes_le (fun p => p * primeSum (x / p)) s
  have h2 : ∑ n ∈ (Icc 1 s).filter (Rough 3), n * primeSum (x / n) ≤
      ∑ n ∈ (Icc 1 s).filter (Rough 3), n * phiSum (x / n) 3 + s * (s * 10) := by
    have h3 : ∀ n ∈ (Icc 1 s).filter (Rough 3), n * primeSum (x / n) ≤ n * phiSum (x / n) 3 + s * 10 := by
      intro n hn
      rw [mem_filter, mem_Icc] at hn
      calc n * primeSum (x / n) ≤ n * (phiSum (x / n) 3 + 10) := Nat.mul_le_mul_left _ (primeSum_le_phi3 _)
        _ = n * phiSum (x / n) 3 + n * 10 := by ring
        _ ≤ _ := by have := hn.1.2; omega
    refine (Finset.sum_le_sum h3).trans ?_
    rw [Finset.sum_add_distrib, Finset.sum_const, smul_eq_mul]
    have hcard : ((Icc 1 s).filter (Rough 3)).card ≤ s := by
      refine le_trans (Finset.card_filter_le _ _) ?_
      simp
    exact Nat.add_le_add_left (Nat.mul_le_mul_right _ hcard) _
  have h4 := sum_phi3_le x s
  have h5 := sum_div_rough_le_ten x hs
  have h6 : 8 * (x * (∑ n ∈ (Icc 1 s).filter (Rough 3), x / n) + 90 * x * s + 1800 * s * s) ≤
      8 * (2 ^ 63 * (10 * 2 ^ 63) + 90 * 2 ^ 63 * 2 ^ 32 + 1800 * 2 ^ 32 * 2 ^ 32) := by
    have h7 := h5.trans (Nat.mul_le_mul_left 10 hx.le)
    gcongr
  have h8 : s * (s * 10) ≤ 2 ^ 32 * (2 ^ 32 * 10) := by gcongr
  have a2 := primeSum_small (m := x / 2) (M := 2 ^ 62) (by omega)
  have a3 := primeSum_small (m := x / 3) (M := 2 ^ 63 / 3) (by omega)
  have a5 := primeSum_small (m := x / 5) (M := 2 ^ 63 / 5) (by omega)
  norm_num at a2 a3 a5 h6 h8 h1 ⊢
  omega

theorem sum_p_primeSum_pred {x : ℕ} (hx : x < 2 ^ 63) :
    (∑ p ∈ (Icc 1 (Nat.sqrt x)).filter Nat.Prime, p * primeSum (p - 1)) * 8 ≤ (2 ^ 63 + 2 ^ 32) ^ 2 := by
  have h1 : (∑ p ∈ (Icc 1 (Nat.sqrt x)).filter Nat.Prime, p * primeSum (p - 1)) * 2 ≤ ∑ n ∈ Icc 1 (Nat.sqrt x), n ^ 3 := by
    rw [Finset.sum_mul]
    refine (Finset.sum_le_sum_of_subset (Finset.filter_subset _ _)).trans (Finset.sum_le_sum ?_)
    intro n hn
    have h2 := primeSum_le (n - 1)
    rw [mem_Icc] at hn
    have e : n - 1 + 1 = n := by omega
    rw [e] at h2
    calc n * primeSum (n - 1) * 2 = n * (primeSum (n - 1) * 2) := by ring
      _ ≤ n * ((n - 1) * n) := Nat.mul_le_mul_left _ h2
      _ ≤ n * (n * n) := Nat.mul_le_mul_left _ (Nat.mul_le_mul_right _ (by omega))
      _ = n ^ 3 := by ring
  have h2 := sum_cubes (Nat.sqrt x)
  have h3 := Nat.sqrt_le x
  have h4 : Nat.sqrt x < 2 ^ 32 := by rw [Nat.sqrt_lt]; omega
  have h5 : (Nat.sqrt x * (Nat.sqrt x + 1)) ^ 2 ≤ (2 ^ 63 + 2 ^ 32) ^ 2 :=
    Nat.pow_le_pow_left (by rw [Nat.mul_add]; omega) 2
  omega

/-- All terms that `P2` adds or subtracts together fit `int128_t`. -/
theorem U_fits {x y : ℕ} (hx : x < 2 ^ 63) : U (-1) x y 2 (x / max y 1) < 2 ^ 127 := by
  have h1 := sum_p_primeSum (x := x) (s := Nat.sqrt x) hx (by rw [Nat.sqrt_lt]; omega)
  have h2 := sum_p_primeSum_pred hx
  have h3 : U (-1) x y 2 (x / max y 1) ≤ ((∑ p ∈ (Icc 1 (Nat.sqrt x)).filter Nat.Prime, p * primeSum (x / p) +
      3 * ∑ p ∈ (Icc 1 (Nat.sqrt x)).filter Nat.Prime, p * primeSum (p - 1) : ℕ) : ℤ) := by
    rw [U_sum, neg_one_mul, sub_neg_eq_add, ← Finset.sum_add_distrib]
    push_cast
    rw [Finset.mul_sum, ← Finset.sum_add_distrib]
    refine le_trans ?_ (Finset.sum_le_sum_of_subset_of_nonneg (s := (Ioc y (Nat.sqrt x)).filter Nat.Prime) ?_
      (fun _ _ _ => by positivity))
    · apply Finset.sum_le_sum
      intro p hp
      simp only [mem_filter, mem_Ioc] at hp
      have h4 : primeSum y ≤ primeSum (p - 1) := primeSum_mono (by omega)
      have h5 : (p : ℤ) * primeSum y ≤ p * primeSum (p - 1) := by exact_mod_cast Nat.mul_le_mul_left p h4
      nlinarith
    · intro p
      simp only [mem_filter, mem_Ioc, mem_Icc]
      rintro ⟨h1, h2⟩
      exact ⟨⟨h2.pos, h1.2⟩, h2⟩
  refine lt_of_le_of_lt h3 ?_
  have h4 : (∑ p ∈ (Icc 1 (Nat.sqrt x)).filter Nat.Prime, p * primeSum (x / p) +
      3 * ∑ p ∈ (Icc 1 (Nat.sqrt x)).filter Nat.Prime, p * primeSum (p - 1)) < 2 ^ 127 := by
    norm_num at h1 h2 ⊢
    omega
  exact_mod_cast h4

end P2
end PS
