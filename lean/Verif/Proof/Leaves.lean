import Verif.Spec.Leaves
import Verif.Proof.Core
import Verif.Proof.PrimeSieve

namespace PS
open Finset
open scoped Classical
local notation "π" => Nat.primeCounting

/-- A special leaf with `p_b > √y` has a prime `m`. -/
theorem leaf_prime {y c b m : ℕ} (h : (b, m) ∈ specialLeaves y c) (hp : y < prm b * prm b) :
    m.Prime ∧ prm b < m ∧ m ≤ y := by
  unfold specialLeaves at h
  simp only [Finset.mem_filter, Finset.mem_product, Finset.mem_Icc] at h
  obtain ⟨⟨⟨h1, h2⟩, h3, h4⟩, h5, h6, h7⟩ := h
  have hb : prm b ≤ y := (prm_le_iff_le_pi (by omega)).2 h2
  have hm1 : m ≠ 1 := by rintro rfl; omega
  have hq := Nat.minFac_prime hm1
  have hd := Nat.minFac_dvd m
  have hlt : ∀ q, q.Prime → q ∣ m → prm b < q := by
    intro q hq hd
    by_contra hc
    push Not at hc
    have hqi : π q ≤ b := by
      have := pi_mono hc
      rwa [pi_prm (by omega)] at this
    have := h7 (π q) (pi_pos hq.two_le) hqi
    rw [prm_pi hq] at this
    exact this hd
  have hmp : m.Prime := by
    rw [Nat.prime_def_minFac]
    refine ⟨by omega, ?_⟩
    by_contra hc
    obtain ⟨k, hk⟩ := hd
    have hk1 : k ≠ 1 := by rintro rfl; omega
    have hkp := Nat.minFac_prime hk1
    have h8 := hlt _ hq (Nat.minFac_dvd m)
    have h9 := hlt _ hkp ((Nat.minFac_dvd k).trans ⟨m.minFac, by rw [Nat.mul_comm]; exact hk⟩)
    have h10 := Nat.le_of_dvd (Nat.pos_of_ne_zero (by rintro rfl; omega)) (Nat.minFac_dvd k)
    have : prm b * prm b ≤ m.minFac * k := Nat.mul_le_mul h8.le (by omega)
    omega
  exact ⟨hmp, hlt m hmp dvd_rfl, h4⟩

theorem rough_of_prime {b q : ℕ} (hb : 1 ≤ b) (hq : q.Prime) (h : prm b < q) : Rough b q := by
  intro i h1 h2 hd
  have := (Nat.prime_dvd_prime_iff_eq (prm_prime i) hq).1 hd
  have := prm_le_prm (i := i) (j := b) (by omega)
  omega

/-- The special leaves with `p > √y` are pairs of primes. -/
theorem mem_specialLeaves_prime {y c p q : ℕ} (hp : p.Prime) (hq : q.Prime) (hpq : p < q) (hqy : q ≤ y)
    (hpy : y < p * q) (hc : c < π p) : (π p, q) ∈ specialLeaves y c := by
  unfold specialLeaves
  simp only [Finset.mem_filter, Finset.mem_product, Finset.mem_Icc]
  rw [prm_pi hp]
  have := hp.two_le
  refine ⟨⟨⟨by omega, pi_mono (by omega)⟩, hq.one_lt.le, hqy⟩, by rw [Nat.mul_comm]; exact hpy, hq.squarefree, ?_⟩
  exact rough_of_prime (by have := pi_pos hp.two_le; omega) hq (by rw [prm_pi hp]; exact hpq)

theorem leafTerm_prime {x p q : ℕ} (hp : p.Prime) (hq : q.Prime) :
    leafTerm x (π p, q) = ((p * q * phiSum (x / (p * q)) (π p - 1) : ℕ) : ℤ) := by
  unfold leafTerm
  dsimp only
  rw [prm_pi hp, show mu q = -1 from ArithmeticFunction.moebius_apply_prime hq, Nat.mul_comm q p]
  push_cast; ring

section
variable {x y c : ℕ} (hy : 1 ≤ y) (hyz : y ≤ x / y)
include hy hyz

/-- A trivial leaf satisfies `p² > z`, `p² > y`, `p q > z`. -/
theorem trivial_facts {p q : ℕ} (hpq : p < q) (hqy : q ≤ y) (h : x < p * p * q) :
    x / y < p * p ∧ y < p * p ∧ x / y < p * q := by
  have hz := Nat.div_mul_le_self x y
  have h1 : x / y < p * p := by
    by_contra hc
    push Not at hc
    have : p * p * q ≤ x / y * y := Nat.mul_le_mul hc hqy
    omega
  refine ⟨h1, by omega, ?_⟩
  by_contra hc
  push Not at hc
  have : p * q * p ≤ x / y * y := Nat.mul_le_mul hc (by omega)
  have e : p * q * p = p * p * q := by ring
  omega

theorem leaves_disjoint {p q : ℕ} (hpq : p < q) (hqy : q ≤ y) (h : x < p * p * q) :
    ¬ (p * p ≤ y ∨ q * p ≤ x / y) := by
  have := trivial_facts hy hyz hpq hqy h
  rw [Nat.mul_comm q p]
  omega

/-- The three classes make up all special leaves. -/
theorem S2Sum_split : S2Sum x y c = S2HardSum x y c + S2EasySum x y c + S2TrivialSum x y c := by
  unfold S2Sum S2HardSum hardLeaves
  rw [← Finset.sum_filter_add_sum_filter_not (specialLeaves y c)
    (fun bm => prm bm.1 * prm bm.1 ≤ y ∨ bm.2 * prm bm.1 ≤ x / y), add_assoc]
  congr 1
  rw [← Finset.sum_filter_add_sum_filter_not _ (fun bm : ℕ × ℕ => prm bm.1 * prm bm.1 * bm.2 ≤ x)]
  have hz := Nat.div_mul_le_self x y
  congr 1
  · unfold S2EasySum
    push_cast
    refine Finset.sum_bij' (fun bm _ => (prm bm.1, bm.2)) (fun pq _ => (π pq.1, pq.2)) ?_ ?_ ?_ ?_ ?_
    · rintro ⟨b, m⟩ h
      simp only [Finset.mem_filter, not_or, not_le] at h
      obtain ⟨⟨h1, h2, h3⟩, h4⟩ := h
      have hl := leaf_prime h1 h2
      unfold specialLeaves at h1
      simp only [Finset.mem_filter, Finset.mem_product, Finset.mem_Icc] at h1
      have := prm_pos b
      have hb : prm b ≤ y := (prm_le_iff_le_pi (by omega)).2 h1.1.1.2
      unfold easyPairs
      simp only [Finset.mem_filter, Finset.mem_product, Finset.mem_Icc]
      refine ⟨⟨⟨by omega, hb⟩, h1.1.2⟩, prm_prime b, hl.1, hl.2.1, ?_, h2, by rw [Nat.mul_comm]; exact h3, h4⟩
      rw [pi_prm (by omega)]; omega
    · rintro ⟨p, q⟩ h
      unfold easyPairs at h
      simp only [Finset.mem_filter, Finset.mem_product, Finset.mem_Icc] at h
      obtain ⟨⟨⟨_, _⟩, _, h1⟩, hp, hq, h2, h3, h4, h5, h6⟩ := h
      simp only [Finset.mem_filter, not_or, not_le]
      rw [prm_pi hp]
      exact ⟨⟨mem_specialLeaves_prime hp hq h2 h1 (by omega) h3, h4, by rw [Nat.mul_comm]; exact h5⟩, h6⟩
    · rintro ⟨b, m⟩ h
      simp only [Finset.mem_filter] at h
      have h1 := h.1.1
      unfold specialLeaves at h1
      simp only [Finset.mem_filter, Finset.mem_product, Finset.mem_Icc] at h1
      dsimp only
      rw [pi_prm (by omega)]
    · rintro ⟨p, q⟩ h
      unfold easyPairs at h
      simp only [Finset.mem_filter] at h
      dsimp only
      rw [prm_pi h.2.1]
    · rintro ⟨b, m⟩ h
      simp only [Finset.mem_filter, not_or, not_le] at h
      obtain ⟨⟨h1, h2, h3⟩, h4⟩ := h
      have hl := leaf_prime h1 h2
      unfold specialLeaves at h1
      simp only [Finset.mem_filter, Finset.mem_product, Finset.mem_Icc] at h1
      have := leafTerm_prime (x := x) (prm_prime b) hl.1
      rw [pi_prm (by omega)] at this
      dsimp only
      rw [this, pi_prm (by omega)]
      push_cast; rfl
  · unfold S2TrivialSum
    push_cast
    refine Finset.sum_bij' (fun bm _ => (prm bm.1, bm.2)) (fun pq _ => (π pq.1, pq.2)) ?_ ?_ ?_ ?_ ?_
    · rintro ⟨b, m⟩ h
      simp only [Finset.mem_filter, not_or, not_le] at h
      obtain ⟨⟨h1, h2, h3⟩, h4⟩ := h
      have hl := leaf_prime h1 h2
      unfold specialLeaves at h1
      simp only [Finset.mem_filter, Finset.mem_product, Finset.mem_Icc] at h1
      have := prm_pos b
      have hb : prm b ≤ y := (prm_le_iff_le_pi (by omega)).2 h1.1.1.2
      unfold trivialPairs
      simp only [Finset.mem_filter, Finset.mem_product, Finset.mem_Icc]
      refine ⟨⟨⟨by omega, hb⟩, h1.1.2⟩, prm_prime b, hl.1, hl.2.1, ?_, (trivial_facts hy hyz hl.2.1 hl.2.2 h4).1, h4⟩
      rw [pi_prm (by omega)]; omega
    · rintro ⟨p, q⟩ h
      unfold trivialPairs at h
      simp only [Finset.mem_filter, Finset.mem_product, Finset.mem_Icc] at h
      obtain ⟨⟨⟨_, _⟩, _, h1⟩, hp, hq, h2, h3, h4, h5⟩ := h
      have hf := trivial_facts hy hyz h2 h1 h5
      simp only [Finset.mem_filter, not_or, not_le]
      rw [prm_pi hp]
      exact ⟨⟨mem_specialLeaves_prime hp hq h2 h1 (by omega) h3, hf.2.1, by rw [Nat.mul_comm]; exact hf.2.2⟩, h5⟩
    · rintro ⟨b, m⟩ h
      simp only [Finset.mem_filter] at h
      have h1 := h.1.1
      unfold specialLeaves at h1
      simp only [Finset.mem_filter, Finset.mem_product, Finset.mem_Icc] at h1
      dsimp only
      rw [pi_prm (by omega)]
    · rintro ⟨p, q⟩ h
      unfold trivialPairs at h
      simp only [Finset.mem_filter] at h
      dsimp only
      rw [prm_pi h.2.1]
    · rintro ⟨b, m⟩ h
      simp only [Finset.mem_filter, not_or, not_le] at h
      obtain ⟨⟨h1, h2, h3⟩, h4⟩ := h
      have hl := leaf_prime h1 h2
      unfold specialLeaves at h1
      simp only [Finset.mem_filter, Finset.mem_product, Finset.mem_Icc] at h1
      have := leafTerm_prime (x := x) (prm_prime b) hl.1
      rw [pi_prm (by omega)] at this
      have hb : prm b ≤ y := (prm_le_iff_le_pi (by omega)).2 h1.1.1.2
      have h0 := prm_pos b
      rw [this, phiSum_eq_one]
      · push_cast; ring
      · rw [Nat.le_div_iff_mul_le (Nat.mul_pos h0 hl.1.pos)]
        have : prm b * m ≤ y * y := Nat.mul_le_mul hb hl.2.2
        have : y * y ≤ x / y * y := Nat.mul_le_mul_right _ hyz
        omega
      · rw [Nat.div_lt_iff_lt_mul (Nat.mul_pos h0 hl.1.pos), show b - 1 + 1 = b by omega,
          ← Nat.mul_assoc]
        exact h4

end
end PS
