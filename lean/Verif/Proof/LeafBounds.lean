import Verif.Proof.Segment
import Verif.Proof.Density

/-!
# Bounds for sums over sets of special leaves

A special leaf `(b, m)` is determined by `n = m p_b`, because `p_b` is the smallest prime factor of `n`.
-/

namespace PS
open Finset
open scoped Classical
local notation "π" => Nat.primeCounting

theorem leaf_minFac {y c b m : ℕ} (h : (b, m) ∈ specialLeaves y c) : (m * prm b).minFac = prm b := by
  unfold specialLeaves at h
  simp only [Finset.mem_filter, Finset.mem_product, Finset.mem_Icc] at h
  obtain ⟨⟨⟨h1, h2⟩, h3, h4⟩, h5, h6, h7⟩ := h
  have hp := prm_prime b
  apply le_antisymm (Nat.minFac_le_of_dvd hp.two_le (Dvd.intro_left _ rfl))
  have hne : m * prm b ≠ 1 := by
    intro hc
    have := Nat.eq_one_of_mul_eq_one_left hc
    have := hp.two_le
    omega
  have hq := Nat.minFac_prime hne
  rcases (Nat.Prime.dvd_mul hq).1 (Nat.minFac_dvd (m * prm b)) with h8 | h8
  · have := (rough_iff.1 h7) _ hq h8
    have h9 : prm b < (m * prm b).minFac := by
      by_contra hc
      have := pi_mono (not_lt.1 hc)
      rw [pi_prm (by omega)] at this
      omega
    omega
  · rw [(Nat.prime_dvd_prime_iff_eq hq hp).1 h8]

/-- The contribution of a set of special leaves with `m p_b ≤ N`. -/
theorem sum_abs_leaf_le {x y c N : ℕ} {D : Finset (ℕ × ℕ)} (hD : D ⊆ specialLeaves y c)
    (hN : ∀ bm ∈ D, bm.2 * prm bm.1 ≤ N) :
    ∑ bm ∈ D, |leafTerm x bm| ≤ ((∑ n ∈ (Icc 1 N).filter (Rough c), n * phiSum (x / n) c : ℕ) : ℤ) := by
  have h1 : ∑ bm ∈ D, (bm.2 * prm bm.1) * phiSum (x / (bm.2 * prm bm.1)) c ≤
      ∑ n ∈ (Icc 1 N).filter (Rough c), n * phiSum (x / n) c := by
    have hinj : Set.InjOn (fun bm : ℕ × ℕ => bm.2 * prm bm.1) D := by
      rintro ⟨b, m⟩ h1 ⟨b', m'⟩ h2 he
      dsimp only at he
      have e1 := leaf_minFac (hD h1)
      have e2 := leaf_minFac (hD h2)
      rw [he, e2] at e1
      have g1 := hD h1
      have g2 := hD h2
      unfold specialLeaves at g1 g2
      simp only [Finset.mem_filter, Finset.mem_product, Finset.mem_Icc] at g1 g2
      have e3 := prm_inj (by omega) (by omega) e1
      subst e3
      have := Nat.eq_of_mul_eq_mul_right (prm_pos b') he
      rw [this]
    rw [← Finset.sum_image (f := fun n => n * phiSum (x / n) c) hinj]
    apply Finset.sum_le_sum_of_subset
    intro n hn
    obtain ⟨⟨b, m⟩, h2, rfl⟩ := Finset.mem_image.1 hn
    have g1 := hD h2
    unfold specialLeaves at g1
    simp only [Finset.mem_filter, Finset.mem_product, Finset.mem_Icc] at g1
    rw [Finset.mem_filter, Finset.mem_Icc]
    refine ⟨⟨Nat.mul_pos (by omega) (prm_pos b), hN _ h2⟩, rough_mul.2 ⟨g1.2.2.2.anti (by omega), (rough_prm (by omega)).2 (by omega)⟩⟩
  refine le_trans ?_ (Int.ofNat_le.2 h1)
  show _ ≤ ((_ : ℕ) : ℤ)
  push_cast
  apply Finset.sum_le_sum
  rintro ⟨b, m⟩ h2
  have g1 := hD h2
  unfold specialLeaves at g1
  simp only [Finset.mem_filter, Finset.mem_product, Finset.mem_Icc] at g1
  unfold leafTerm
  dsimp only
  rw [abs_mul, abs_mul, abs_neg, abs_mul, Nat.abs_cast, Nat.abs_cast, Nat.abs_cast]
  have h3 : (phiSum (x / (m * prm b)) (b - 1) : ℤ) ≤ phiSum (x / (m * prm b)) c := by
    exact_mod_cast phiSum_anti (by omega)
  have h4 := abs_mu_le m
  calc |mu m| * ((m : ℤ) * prm b) * phiSum (x / (m * prm b)) (b - 1)
      ≤ 1 * ((m : ℤ) * prm b) * phiSum (x / (m * prm b)) c := by gcongr
    _ = _ := by ring

theorem abs_leaf_sum_le {x y c N : ℕ} {D : Finset (ℕ × ℕ)} (hD : D ⊆ specialLeaves y c)
    (hN : ∀ bm ∈ D, bm.2 * prm bm.1 ≤ N) :
    |∑ bm ∈ D, leafTerm x bm| ≤ ((∑ n ∈ (Icc 1 N).filter (Rough c), n * phiSum (x / n) c : ℕ) : ℤ) :=
  (Finset.abs_sum_le_sum_abs _ _).trans (sum_abs_leaf_le hD hN)

/-- A crude bound. -/
theorem abs_leaf_sum_crude {x y c N : ℕ} {D : Finset (ℕ × ℕ)} (hD : D ⊆ specialLeaves y c)
    (hN : ∀ bm ∈ D, bm.2 * prm bm.1 ≤ N) :
    |∑ bm ∈ D, leafTerm x bm| * 2 ≤ ((x * (x * (Nat.log 2 N + 1) + N) : ℕ) : ℤ) := by
  have h1 := abs_leaf_sum_le (x := x) hD hN
  have h2 := sum_leaf_le x N
  have h3 : ∑ n ∈ (Icc 1 N).filter (Rough c), n * phiSum (x / n) c ≤ ∑ n ∈ Icc 1 N, n * phiSum (x / n) 0 := by
    refine le_trans (Finset.sum_le_sum_of_subset (Finset.filter_subset _ _)) (Finset.sum_le_sum fun n _ => ?_)
    exact Nat.mul_le_mul_left _ (phiSum_anti (Nat.zero_le _))
  have h4 : (((∑ n ∈ (Icc 1 N).filter (Rough c), n * phiSum (x / n) c) * 2 : ℕ) : ℤ) ≤
      ((x * (x * (Nat.log 2 N + 1) + N) : ℕ) : ℤ) := by exact_mod_cast le_trans (Nat.mul_le_mul_right 2 h3) h2
  rw [Nat.cast_mul] at h4
  push_cast at h1 h4 ⊢
  linarith

/-- A bound for `c ≥ 6`, scaled by `2 · 30030`. -/
theorem sum_abs_leaf_density {x y c N : ℕ} {D : Finset (ℕ × ℕ)} (hD : D ⊆ specialLeaves y c) (hc : 6 ≤ c)
    (hN : ∀ bm ∈ D, bm.2 * prm bm.1 ≤ N) :
    (∑ bm ∈ D, |leafTerm x bm|) * 60060 ≤
      ((5760 * (x * (∑ n ∈ (Icc 1 N).filter (Rough 3), x / n) + 90090 * x * N + 1803601800 * N * N) : ℕ) : ℤ) := by
  have h1 := sum_abs_leaf_le (x := x) hD hN
  have h2 : ∑ n ∈ (Icc 1 N).filter (Rough c), n * phiSum (x / n) c ≤
      ∑ n ∈ (Icc 1 N).filter (Rough 3), n * phiSum (x / n) 6 := by
    refine le_trans (Finset.sum_le_sum_of_subset
      (show (Icc 1 N).filter (Rough c) ⊆ (Icc 1 N).filter (Rough 3) from ?_))
      (Finset.sum_le_sum fun n _ => Nat.mul_le_mul_left _ (phiSum_anti hc))
    intro n
    simp only [mem_filter]
    rintro ⟨h1, h2⟩
    exact ⟨h1, h2.anti (by omega)⟩
  have h3 : (∑ n ∈ (Icc 1 N).filter (Rough 3), n * phiSum (x / n) 6) * 60060 ≤
      5760 * (x * (∑ n ∈ (Icc 1 N).filter (Rough 3), x / n) + 90090 * x * N + 1803601800 * N * N) := by
    have hterm : ∀ n ∈ (Icc 1 N).filter (Rough 3), n * phiSum (x / n) 6 * 60060 ≤
        5760 * (x * (x / n) + (90090 * x + 1803601800 * N)) := by
      intro n hn
      simp only [mem_filter, mem_Icc] at hn
      have hd := phiSum_density (x / n) 6
      rw [primorial_six, totient_six] at hd
      set m := x / n with hm
      have hnm : n * m ≤ x := Nat.mul_div_le x n
      have hk : m / 30030 * 30030 ≤ m := Nat.div_mul_le_self m 30030
      set K := m / 30030
      have e1 : phiSum m 6 * 60060 ≤ 5760 * ((m + 30030) * (m + 60060)) := by
        have : 901800900 * ((K + 1) * (K + 2)) ≤ (m + 30030) * (m + 60060) := by
          calc 901800900 * ((K + 1) * (K + 2)) = (K * 30030 + 30030) * (K * 30030 + 60060) := by ring
            _ ≤ _ := by gcongr
        calc phiSum m 6 * 60060 = phiSum m 6 * 2 * 30030 := by ring
          _ ≤ 5760 * 30030 * ((K + 1) * (K + 2)) * 30030 := Nat.mul_le_mul_right _ hd
          _ = 5760 * (901800900 * ((K + 1) * (K + 2))) := by ring
          _ ≤ _ := Nat.mul_le_mul_left _ this
      calc n * phiSum m 6 * 60060 = n * (phiSum m 6 * 60060) := by ring
        _ ≤ n * (5760 * ((m + 30030) * (m + 60060))) := Nat.mul_le_mul_left _ e1
        _ = 5760 * ((n * m) * m + (90090 * (n * m) + 1803601800 * n)) := by ring
        _ ≤ _ := by gcongr; exact hn.1.2
    have hcard : ((Icc 1 N).filter (Rough 3)).card ≤ N := by
      refine le_trans (Finset.card_filter_le _ _) ?_
      simp
    rw [Finset.sum_mul]
    refine le_trans (Finset.sum_le_sum hterm) ?_
    rw [← Finset.mul_sum, Finset.sum_add_distrib, ← Finset.mul_sum, Finset.sum_const, smul_eq_mul]
    apply Nat.mul_le_mul_left
    have := Nat.mul_le_mul_right (90090 * x + 1803601800 * N) hcard
    have e : N * (90090 * x + 1803601800 * N) = 90090 * x * N + 1803601800 * N * N := by ring
    omega
  have h4 : (((∑ n ∈ (Icc 1 N).filter (Rough c), n * phiSum (x / n) c) * 60060 : ℕ) : ℤ) ≤
      ((5760 * (x * (∑ n ∈ (Icc 1 N).filter (Rough 3), x / n) + 90090 * x * N + 1803601800 * N * N) : ℕ) : ℤ) := by
    exact_mod_cast le_trans (Nat.mul_le_mul_right 60060 h2) h3
  refine le_trans (mul_le_mul_of_nonneg_right h1 (by norm_num)) ?_
  rw [Nat.cast_mul] at h4
  exact h4

/-- Sets of special leaves with `m p_b < 2^48` contribute less than `2^127` when `x < 2^63`. -/
theorem sum_abs_leaf_fits {x y c : ℕ} {D : Finset (ℕ × ℕ)} (hD : D ⊆ specialLeaves y c) (hc : 6 ≤ c ∨ π y ≤ c)
    (hx : x < 2 ^ 63) (hN : ∀ bm ∈ D, bm.2 * prm bm.1 ≤ 2 ^ 48) :
    (∑ bm ∈ D, |leafTerm x bm|) < 2 ^ 127 := by
  rcases hc with hc | hc
  · have h1 := sum_abs_leaf_density (x := x) hD hc hN
    have h2 := sum_div_rough_le x (2 ^ 48)
    have h3 : Nat.log 2 (2 ^ 48 / 30) < 44 := Nat.log_lt_of_lt_pow (by norm_num) (by norm_num)
    have h4 : ∑ n ∈ (Icc 1 (2 ^ 48)).filter (Rough 3), x / n ≤ 14 * x := by
      have : x / 30 * (Nat.log 2 (2 ^ 48 / 30) + 1) ≤ x / 30 * 44 := Nat.mul_le_mul_left _ (by omega)
      omega
    have h5 : 5760 * (x * (∑ n ∈ (Icc 1 (2 ^ 48)).filter (Rough 3), x / n) + 90090 * x * 2 ^ 48 + 1803601800 * 2 ^ 48 * 2 ^ 48) ≤
        5760 * (2 ^ 63 * (14 * 2 ^ 63) + 90090 * 2 ^ 63 * 2 ^ 48 + 1803601800 * 2 ^ 48 * 2 ^ 48) := by
      have h6 := h4.trans (Nat.mul_le_mul_left 14 hx.le)
      generalize (2:ℕ) ^ 48 = N at *
      generalize (∑ n ∈ (Icc 1 N).filter (Rough 3), x / n) = T at *
      gcongr
    have h6 : (∑ bm ∈ D, |leafTerm x bm|) * 60060 ≤
        ((5760 * (2 ^ 63 * (14 * 2 ^ 63) + 90090 * 2 ^ 63 * 2 ^ 48 + 1803601800 * 2 ^ 48 * 2 ^ 48) : ℕ) : ℤ) :=
      le_trans h1 (by exact_mod_cast h5)
    norm_num at h6 ⊢
    omega
  · have : D = ∅ := by
      rw [Finset.eq_empty_iff_forall_notMem]
      intro bm hbm
      have := hD hbm
      unfold specialLeaves at this
      simp only [Finset.mem_filter, Finset.mem_product, Finset.mem_Icc] at this
      omega
    rw [this]; simp

theorem abs_leaf_sum_density {x y c N : ℕ} {D : Finset (ℕ × ℕ)} (hD : D ⊆ specialLeaves y c) (hc : 6 ≤ c)
    (hN : ∀ bm ∈ D, bm.2 * prm bm.1 ≤ N) :
    |∑ bm ∈ D, leafTerm x bm| * 60060 ≤
      ((5760 * (x * (∑ n ∈ (Icc 1 N).filter (Rough 3), x / n) + 90090 * x * N + 1803601800 * N * N) : ℕ) : ℤ) :=
  (mul_le_mul_of_nonneg_right (Finset.abs_sum_le_sum_abs _ _) (by norm_num)).trans (sum_abs_leaf_density hD hc hN)

theorem abs_leaf_sum_fits {x y c : ℕ} {D : Finset (ℕ × ℕ)} (hD : D ⊆ specialLeaves y c) (hc : 6 ≤ c ∨ π y ≤ c)
    (hx : x < 2 ^ 63) (hN : ∀ bm ∈ D, bm.2 * prm bm.1 ≤ 2 ^ 48) :
    |∑ bm ∈ D, leafTerm x bm| < 2 ^ 127 :=
  (Finset.abs_sum_le_sum_abs _ _).trans_lt (sum_abs_leaf_fits hD hc hx hN)

namespace Cfg
variable {g : Cfg}

theorem Mu_acoef_le {b lo hi : ℕ} : g.Mu acoef b lo hi ≤ ((prm b * ∑ m ∈ g.Lv b lo hi, m : ℕ) : ℤ) := by
  unfold Mu acoef
  push_cast
  rw [Finset.mul_sum]
  apply Finset.sum_le_sum
  intro m _
  unfold coef
  rw [abs_mul, abs_neg, abs_mul, Nat.abs_cast, Nat.abs_cast]
  have h4 := abs_mu_le m
  calc |mu m| * ((m : ℤ) * prm b) ≤ 1 * ((m : ℤ) * prm b) := by gcongr
    _ = _ := by ring

theorem abs_Mu_le_acoef {b lo hi : ℕ} : |g.Mu coef b lo hi| ≤ g.Mu acoef b lo hi := Finset.abs_sum_le_sum_abs _ _

theorem sum_Lv_le_phiSum {b lo hi : ℕ} (hc : 3 ≤ g.c) : ∑ m ∈ g.Lv b lo hi, m ≤ phiSum g.y 3 := by
  unfold phiSum
  apply Finset.sum_le_sum_of_subset
  intro m hm
  have h1 := (mem_H.1 (mem_Lv.1 hm).1).1
  unfold specialLeaves at h1
  simp only [Finset.mem_filter, Finset.mem_product, Finset.mem_Icc] at h1
  rw [Finset.mem_filter, Finset.mem_Icc]
  exact ⟨h1.1.2, h1.2.2.2.anti (by omega)⟩

theorem Mu_bound {b lo hi B : ℕ} (hc : 3 ≤ g.c ∨ π g.y ≤ g.c) (hb : prm b ≤ B)
    (hB : B * (8 * ((g.y + 30) * (g.y + 60))) < 2 ^ 127 * 60) :
    (-2 ^ 127 ≤ g.Mu coef b lo hi ∧ g.Mu coef b lo hi < 2 ^ 127) ∧ g.Mu acoef b lo hi < 2 ^ 127 := by
  have key : g.Mu acoef b lo hi < 2 ^ 127 := by
    rcases hc with hc | hc
    · refine lt_of_le_of_lt Mu_acoef_le ?_
      have h1 := sum_Lv_le_phiSum (g := g) (b := b) (lo := lo) (hi := hi) hc
      have hd := phiSum_density g.y 3
      rw [primorial_three, totient_three] at hd
      have hk : g.y / 30 * 30 ≤ g.y := Nat.div_mul_le_self g.y 30
      set K := g.y / 30
      have e1 : phiSum g.y 3 * 60 ≤ 8 * ((g.y + 30) * (g.y + 60)) := by
        have : 900 * ((K + 1) * (K + 2)) ≤ (g.y + 30) * (g.y + 60) := by
          calc 900 * ((K + 1) * (K + 2)) = (K * 30 + 30) * (K * 30 + 60) := by ring
            _ ≤ _ := by gcongr
        omega
      have h2 : prm b * (∑ m ∈ g.Lv b lo hi, m) * 60 < 2 ^ 127 * 60 := by
        refine lt_of_le_of_lt ?_ hB
        calc prm b * (∑ m ∈ g.Lv b lo hi, m) * 60 ≤ B * phiSum g.y 3 * 60 := by gcongr
          _ = B * (phiSum g.y 3 * 60) := by ring
          _ ≤ _ := Nat.mul_le_mul_left _ e1
      have h3 : prm b * (∑ m ∈ g.Lv b lo hi, m) < 2 ^ 127 := by omega
      exact_mod_cast h3
    · have : g.Lv b lo hi = ∅ := by
        rw [Finset.eq_empty_iff_forall_notMem]
        intro m hm
        have := leaf_gt (mem_H.1 (mem_Lv.1 hm).1).1
        omega
      unfold Mu
      rw [this]; simp
  have h0 := abs_le.1 (abs_Mu_le_acoef (g := g) (b := b) (lo := lo) (hi := hi))
  omega

/-- Leaves with `m p_b ≤ K`. -/
theorem Mu_bound_K {b lo hi : ℕ} (hb : g.S < b) (hK : g.K < 2 ^ 62) :
    (-2 ^ 127 ≤ g.Mu coef b lo hi ∧ g.Mu coef b lo hi < 2 ^ 127) ∧ g.Mu acoef b lo hi < 2 ^ 127 := by
  have key : g.Mu acoef b lo hi < 2 ^ 127 := by
    refine lt_of_le_of_lt Mu_acoef_le ?_
    have h1 : ∀ m ∈ g.Lv b lo hi, m * prm b ≤ g.K := by
      intro m hm
      have := (mem_H.1 (mem_Lv.1 hm).1).2
      omega
    have hp := prm_pos b
    have h2 : g.Lv b lo hi ⊆ Icc 1 (g.K / prm b) := by
      intro m hm
      have h3 := leaf_gt (mem_H.1 (mem_Lv.1 hm).1).1
      rw [Finset.mem_Icc, Nat.le_div_iff_mul_le hp]
      exact ⟨by omega, h1 m hm⟩
    have h4 : prm b * ∑ m ∈ g.Lv b lo hi, m ≤ g.K * g.K := by
      rw [Finset.mul_sum]
      refine le_trans (Finset.sum_le_card_nsmul _ _ g.K (fun m hm => by rw [Nat.mul_comm]; exact h1 m hm)) ?_
      rw [smul_eq_mul]
      refine Nat.mul_le_mul_right _ (le_trans (Finset.card_le_card h2) ?_)
      rw [Nat.card_Icc]
      have := Nat.div_le_self g.K (prm b)
      omega
    have h5 : g.K * g.K < 2 ^ 62 * 2 ^ 62 := Nat.mul_lt_mul'' hK hK
    have h6 : prm b * ∑ m ∈ g.Lv b lo hi, m < 2 ^ 127 := by omega
    exact_mod_cast h6
  have h0 := abs_le.1 (abs_Mu_le_acoef (g := g) (b := b) (lo := lo) (hi := hi))
  omega

end Cfg
end PS
