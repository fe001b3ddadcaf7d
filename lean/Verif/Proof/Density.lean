import Verif.Proof.Tables
import Verif.Proof.Bounds
import Verif.Proof.Leaves
import Mathlib.Data.Nat.PrimeFin

/-! Sharper bounds of the partial sums, using the density of the numbers coprime to the first primes. -/

namespace PS
open Finset PhiTiny
open scoped Classical
local notation "π" => Nat.primeCounting

theorem primorial_six : primorialP 6 = 30030 := by
  have h6 := (tab_consts 6 le_rfl).1
  have : primeProducts.rd 6 = .ok 30030 := by decide
  rw [this] at h6; injection h6 with h; exact h.symm

theorem totient_six : totientP 6 = 5760 := by
  have h6 := (tab_consts 6 le_rfl).2.1
  have : totients.rd 6 = .ok 5760 := by decide
  rw [this] at h6; injection h6 with h; exact h.symm

theorem primorial_three : primorialP 3 = 30 := by
  have h6 := (tab_consts 3 (by omega)).1
  have : primeProducts.rd 3 = .ok 30 := by decide
  rw [this] at h6; injection h6 with h; exact h.symm

theorem totient_three : totientP 3 = 8 := by
  have h6 := (tab_consts 3 (by omega)).2.1
  have : totients.rd 3 = .ok 8 := by decide
  rw [this] at h6; injection h6 with h; exact h.symm

/-- The rough numbers of one period. -/
theorem card_block (a k : ℕ) :
    ((Ioc (k * primorialP a) ((k + 1) * primorialP a)).filter (Rough a)).card = totientP a := by
  have h1 := phi_period a k 0
  have h2 := phi_period a (k + 1) 0
  have h0 : phi 0 a = 0 := by simp [phi]
  rw [h0] at h1 h2
  simp only [Nat.add_zero] at h1 h2
  have hle : k * primorialP a ≤ (k + 1) * primorialP a := Nat.mul_le_mul_right _ (by omega)
  have hu : (Icc 1 ((k + 1) * primorialP a)).filter (Rough a) =
      (Icc 1 (k * primorialP a)).filter (Rough a) ∪
      (Ioc (k * primorialP a) ((k + 1) * primorialP a)).filter (Rough a) := by
    rw [← Finset.filter_union]
    congr 1
    ext n
    simp only [mem_Icc, mem_union, mem_Ioc]
    omega
  have hd : Disjoint ((Icc 1 (k * primorialP a)).filter (Rough a))
      ((Ioc (k * primorialP a) ((k + 1) * primorialP a)).filter (Rough a)) := by
    rw [Finset.disjoint_left]
    intro n
    simp only [mem_filter, mem_Icc, mem_Ioc]
    omega
  unfold phi at h1 h2
  rw [hu, Finset.card_union_of_disjoint hd, h1] at h2
  rw [Nat.add_mul k 1 (totientP a), Nat.one_mul] at h2
  omega

/-- A sum over rough numbers, block by block. -/
theorem sum_blocks_le (f : ℕ → ℕ) (g : ℕ → ℕ) (a N : ℕ)
    (hg : ∀ k, k < N → ∀ n, k * primorialP a < n → n ≤ (k + 1) * primorialP a → Rough a n → f n ≤ g k) :
    ∑ n ∈ (Icc 1 (N * primorialP a)).filter (Rough a), f n ≤ totientP a * ∑ k ∈ range N, g k := by
  induction N with
  | zero => simp
  | succ N ih =>
    have hle : N * primorialP a ≤ (N + 1) * primorialP a := Nat.mul_le_mul_right _ (by omega)
    have hu : (Icc 1 ((N + 1) * primorialP a)).filter (Rough a) =
        (Icc 1 (N * primorialP a)).filter (Rough a) ∪
        (Ioc (N * primorialP a) ((N + 1) * primorialP a)).filter (Rough a) := by
      rw [← Finset.filter_union]
      congr 1
      ext n
      simp only [mem_Icc, mem_union, mem_Ioc]
      omega
    have hd : Disjoint ((Icc 1 (N * primorialP a)).filter (Rough a))
        ((Ioc (N * primorialP a) ((N + 1) * primorialP a)).filter (Rough a)) := by
      rw [Finset.disjoint_left]
      intro n
      simp only [mem_filter, mem_Icc, mem_Ioc]
      omega
    rw [hu, Finset.sum_union hd, Finset.sum_range_succ, Nat.mul_add]
    refine Nat.add_le_add (ih (fun k hk => hg k (by omega))) ?_
    rw [← card_block a N, ← smul_eq_mul]
    apply Finset.sum_le_card_nsmul
    intro n hn
    simp only [mem_filter, mem_Ioc] at hn
    exact hg N (by omega) n hn.1.1 hn.1.2 hn.2

/-- `2 φ(x, a) ≤ T P (K + 1) (K + 2)` with the primorial `P`, its totient `T` and `K = ⌊x / P⌋`. -/
theorem phiSum_density (x a : ℕ) : phiSum x a * 2 ≤
    totientP a * primorialP a * ((x / primorialP a + 1) * (x / primorialP a + 2)) := by
  set P := primorialP a with hP
  have hP0 : 0 < P := primorial_pos a
  have h1 : phiSum x a ≤ ∑ n ∈ (Icc 1 ((x / P + 1) * P)).filter (Rough a), n := by
    unfold phiSum
    apply Finset.sum_le_sum_of_subset
    intro n
    simp only [mem_filter, mem_Icc]
    have : x < (x / P + 1) * P := by
      rw [Nat.mul_comm]; exact Nat.lt_mul_div_succ x hP0
    rintro ⟨⟨h1, h2⟩, h3⟩
    exact ⟨⟨h1, by omega⟩, h3⟩
  have h2 := sum_blocks_le (fun n => n) (fun k => (k + 1) * P) a (x / P + 1) (fun k _ n _ h _ => h)
  have h3 : ∀ N, (∑ k ∈ range N, (k + 1) * P) * 2 = P * (N * (N + 1)) := by
    intro N
    induction N with
    | zero => simp
    | succ N ih => rw [Finset.sum_range_succ, Nat.add_mul, ih]; ring
  calc phiSum x a * 2 ≤ totientP a * (∑ k ∈ range (x / P + 1), (k + 1) * P) * 2 :=
        Nat.mul_le_mul_right 2 (le_trans h1 h2)
    _ = _ := by rw [Nat.mul_assoc, h3]; ring

/-- A number below the sixth power of its least prime factor has at most five different prime factors. -/
theorem card_primeFactors_le {M : ℕ} (h1 : M ≠ 0) (h : M < M.minFac ^ 6) : M.primeFactors.card ≤ 5 := by
  by_contra hc
  push Not at hc
  have h2 : M.minFac ^ M.primeFactors.card ≤ ∏ p ∈ M.primeFactors, p := by
    rw [← Finset.prod_const]
    apply Finset.prod_le_prod' 
    intro p hp
    have := Nat.mem_primeFactors.1 hp
    exact Nat.minFac_le_of_dvd this.1.two_le this.2.1
  have h3 := Nat.le_of_dvd (Nat.pos_of_ne_zero h1) (Nat.prod_primeFactors_dvd M)
  have h4 : M.minFac ^ 6 ≤ M.minFac ^ M.primeFactors.card :=
    Nat.pow_le_pow_right (Nat.minFac_pos M) (by omega)
  omega

/-- Every number is counted at most four times by the easy leaves. -/
theorem S2EasySum_le_four {x y c : ℕ} (hxy : x < (y + 1) ^ 3) :
    S2EasySum x y c ≤ 4 * phiSum x (π (Nat.sqrt y)) := by
  set T := (easyPairs x y c).sigma (fun pq =>
    (Icc 1 (x / (pq.1 * pq.2))).filter (Rough (π pq.1 - 1))) with hT
  have hS : S2EasySum x y c = ∑ t ∈ T, t.1.1 * t.1.2 * t.2 := by
    rw [hT, Finset.sum_sigma]
    unfold S2EasySum phiSum
    apply Finset.sum_congr rfl
    intro pq _
    rw [Finset.mul_sum]
  have hfacts : ∀ t ∈ T, t.1.1.Prime ∧ t.1.2.Prime ∧ t.1.1 < t.1.2 ∧ y < t.1.1 * t.1.1 ∧ 1 ≤ t.2 ∧
      t.1.1 * t.1.2 * t.2 ≤ x ∧ (t.1.1 * t.1.2 * t.2).minFac = t.1.1 ∧
      Rough (π (Nat.sqrt y)) (t.1.1 * t.1.2 * t.2) := by
    rintro ⟨⟨p, q⟩, k⟩ ht
    rw [hT, Finset.mem_sigma] at ht
    unfold easyPairs at ht
    simp only [Finset.mem_filter, Finset.mem_product, Finset.mem_Icc] at ht
    obtain ⟨⟨_, hp, hq, hlt, _, hy, _, _⟩, ⟨hk1, hk2⟩, hk3⟩ := ht
    have hpq : 0 < p * q := Nat.mul_pos hp.pos hq.pos
    have hle : p * q * k ≤ x := by
      rw [Nat.mul_comm]; exact (Nat.le_div_iff_mul_le hpq).1 hk2
    have hall : ∀ r, r.Prime → r ∣ p * q * k → p ≤ r := by
      intro r hr hd
      rcases (Nat.Prime.dvd_mul hr).1 hd with h | h
      · rcases (Nat.Prime.dvd_mul hr).1 h with h | h
        · exact ((Nat.prime_dvd_prime_iff_eq hr hp).1 h).ge
        · exact hlt.le.trans ((Nat.prime_dvd_prime_iff_eq hr hq).1 h).ge
      · have h5 := rough_iff.1 hk3 r hr h
        have h6 := pi_pos hp.two_le
        rw [← prm_pi hp, ← prm_pi hr]
        exact prm_le_prm (by omega)
    have hne : p * q * k ≠ 1 := by
      have := hp.two_le
      have := hq.two_le
      have : 2 * 2 * 1 ≤ p * q * k := by gcongr
      omega
    refine ⟨hp, hq, hlt, hy, hk1, hle, ?_, ?_⟩
    · apply le_antisymm
      · exact Nat.minFac_le_of_dvd hp.two_le (by rw [Nat.mul_assoc]; exact Nat.dvd_mul_right _ _)
      · exact hall _ (Nat.minFac_prime hne) (Nat.minFac_dvd _)
    · rw [rough_pi_iff]
      intro r hr hd
      have := hall r hr hd
      have : Nat.sqrt y < p := Nat.sqrt_lt.2 hy
      omega
  have hmaps : ∀ t ∈ T, t.1.1 * t.1.2 * t.2 ∈ (Icc 1 x).filter (Rough (π (Nat.sqrt y))) := by
    intro t ht
    obtain ⟨hp, hq, _, _, h1, h2, _, h4⟩ := hfacts t ht
    rw [Finset.mem_filter, Finset.mem_Icc]
    exact ⟨⟨Nat.mul_pos (Nat.mul_pos hp.pos hq.pos) h1, h2⟩, h4⟩
  rw [hS, ← Finset.sum_fiberwise_of_maps_to hmaps]
  unfold phiSum
  rw [Finset.mul_sum]
  apply Finset.sum_le_sum
  intro M hM
  have hM1 : 1 ≤ M ∧ M ≤ x := by
    rw [Finset.mem_filter, Finset.mem_Icc] at hM; exact hM.1
  rw [Finset.sum_congr rfl (fun t ht => (Finset.mem_filter.1 ht).2), Finset.sum_const, smul_eq_mul]
  apply Nat.mul_le_mul_right
  by_cases hem : (T.filter (fun t => t.1.1 * t.1.2 * t.2 = M)).Nonempty
  · obtain ⟨t0, ht0⟩ := hem
    rw [Finset.mem_filter] at ht0
    obtain ⟨hp, hq, hlt, hy, hk, hle, hmf, _⟩ := hfacts t0 ht0.1
    rw [ht0.2] at hmf
    have hM6 : M < M.minFac ^ 6 := by
      rw [hmf]
      have : (y + 1) ^ 3 ≤ (t0.1.1 * t0.1.1) ^ 3 := Nat.pow_le_pow_left (by omega) 3
      have e : (t0.1.1 * t0.1.1) ^ 3 = t0.1.1 ^ 6 := by ring
      omega
    have h5 := card_primeFactors_le (by omega) hM6
    have hmem : M.minFac ∈ M.primeFactors := by
      rw [hmf, Nat.mem_primeFactors]
      exact ⟨hp, by rw [← ht0.2, Nat.mul_assoc]; exact Nat.dvd_mul_right _ _, by omega⟩
    have h4 : (M.primeFactors.erase M.minFac).card ≤ 4 := by
      rw [Finset.card_erase_of_mem hmem]; omega
    refine le_trans (Finset.card_le_card_of_injOn (fun t => t.1.2) ?_ ?_) h4
    · intro t ht
      rw [Finset.mem_coe, Finset.mem_filter] at ht
      obtain ⟨hp', hq', hlt', _, hk', _, hmf', _⟩ := hfacts t ht.1
      rw [ht.2] at hmf'
      rw [Finset.mem_coe, Finset.mem_erase, Nat.mem_primeFactors]
      refine ⟨by rw [hmf']; exact hlt'.ne', hq', ?_, by omega⟩
      rw [← ht.2, Nat.mul_comm t.1.1, Nat.mul_assoc]
      exact Nat.dvd_mul_right _ _
    · rintro ⟨⟨p, q⟩, k⟩ ht ⟨⟨p', q'⟩, k'⟩ ht' (he : q = q')
      rw [Finset.mem_coe, Finset.mem_filter] at ht ht'
      obtain ⟨hp1, hq1, _, _, _, _, hm1, _⟩ := hfacts _ ht.1
      obtain ⟨_, _, _, _, _, _, hm2, _⟩ := hfacts _ ht'.1
      rw [ht.2] at hm1
      rw [ht'.2] at hm2
      have ep : p = p' := hm1.symm.trans hm2
      subst he
      subst ep
      have ek : p * q * k = p * q * k' := ht.2.trans ht'.2.symm
      have := Nat.eq_of_mul_eq_mul_left (Nat.mul_pos hp1.pos hq1.pos) ek
      rw [this]
  · rw [Finset.not_nonempty_iff_eq_empty] at hem
    rw [hem]; simp

/-- Sum of `⌊x/n⌋` over the `n ≤ y` coprime to 30. -/
theorem sum_div_rough_le (x y : ℕ) : ∑ n ∈ (Icc 1 y).filter (Rough 3), x / n ≤
    x + 8 * (x / 7 + (x / 30) * (Nat.log 2 (y / 30) + 1)) := by
  have hP := primorial_three
  have h2 := sum_blocks_le (fun n => if n = 1 then 0 else x / n) (fun k => if k = 0 then x / 7 else x / 30 / k) 3
    (y / 30 + 1)
    (fun k _ n h1 h2 h3 => by
      rw [hP] at h1
      by_cases hn : n = 1
      · rw [if_pos hn]; exact Nat.zero_le _
      rw [if_neg hn]
      split
      · have h4 := (rough_minFac hn).1 h3
        have h5 : prm 4 ≤ n.minFac := by
          rw [prm_le_iff_le_pi (by omega)]; omega
        have h6 := Nat.minFac_le (n := n) (by omega)
        rw [prm_4] at h5
        exact Nat.div_le_div_left (by omega) (by omega)
      · rw [Nat.div_div_eq_div_mul]
        exact Nat.div_le_div_left (by omega) (by omega))
  rw [hP, totient_three] at h2
  have h0 : ∑ n ∈ (Icc 1 y).filter (Rough 3), x / n ≤
      x + ∑ n ∈ (Icc 1 ((y / 30 + 1) * 30)).filter (Rough 3), (if n = 1 then 0 else x / n) := by
    have e1 : ∀ n ∈ (Icc 1 ((y / 30 + 1) * 30)).filter (Rough 3),
        x / n = (if n = 1 then x else 0) + (if n = 1 then 0 else x / n) := by
      intro n _
      split
      · rename_i h; rw [h]; simp
      · simp
    refine le_trans (Finset.sum_le_sum_of_subset
      (t := (Icc 1 ((y / 30 + 1) * 30)).filter (Rough 3)) ?_) ?_
    · intro n
      simp only [mem_filter, mem_Icc]
      rintro ⟨⟨h1, h2⟩, h3⟩
      exact ⟨⟨h1, by omega⟩, h3⟩
    · rw [Finset.sum_congr rfl e1, Finset.sum_add_distrib, Finset.sum_ite_eq']
      apply Nat.add_le_add_right
      split
      · exact le_rfl
      · exact Nat.zero_le _
  refine le_trans h0 (Nat.add_le_add_left (le_trans h2 (Nat.mul_le_mul_left 8 ?_)) x)
  rw [Finset.sum_range_succ']
  have h3 : ∑ k ∈ range (y / 30), (if k + 1 = 0 then x / 7 else x / 30 / (k + 1)) =
      ∑ n ∈ Icc 1 (y / 30), x / 30 / n := by
    have : ∀ N, ∑ k ∈ range N, (if k + 1 = 0 then x / 7 else x / 30 / (k + 1)) =
        ∑ n ∈ Icc 1 N, x / 30 / n := by
      intro N
      induction N with
      | zero => simp
      | succ N ih =>
        rw [Finset.sum_range_succ, ih, Finset.sum_Icc_succ_top (by omega), if_neg (by omega)]
    exact this _
  rw [h3, if_pos rfl]
  have := sum_div_le (x / 30) (y / 30)
  omega

theorem sum_div_rough_le_ten (x : ℕ) {y : ℕ} (hy : y < 2 ^ 32) : ∑ n ∈ (Icc 1 y).filter (Rough 3), x / n ≤ 10 * x := by
  have h2 := sum_div_rough_le x y
  have h3 : Nat.log 2 (y / 30) < 28 := by
    by_cases h0 : y / 30 = 0
    · rw [h0]; simp
    · exact Nat.log_lt_of_lt_pow h0 (by omega)
  have : x / 30 * (Nat.log 2 (y / 30) + 1) ≤ x / 30 * 28 := Nat.mul_le_mul_left _ (by omega)
  omega

theorem sum_phi3_le (x y : ℕ) : (∑ n ∈ (Icc 1 y).filter (Rough 3), n * phiSum (x / n) 3) * 60 ≤
    8 * (x * (∑ n ∈ (Icc 1 y).filter (Rough 3), x / n) + 90 * x * y + 1800 * y * y) := by
  have hterm : ∀ n ∈ (Icc 1 y).filter (Rough 3), n * phiSum (x / n) 3 * 60 ≤
      8 * (x * (x / n) + (90 * x + 1800 * y)) := by
    intro n hn
    simp only [mem_filter, mem_Icc] at hn
    have hd := phiSum_density (x / n) 3
    rw [primorial_three, totient_three] at hd
    set m := x / n with hm
    have hnm : n * m ≤ x := Nat.mul_div_le x n
    have hk : m / 30 * 30 ≤ m := Nat.div_mul_le_self m 30
    set K := m / 30
    have e1 : phiSum m 3 * 60 ≤ 8 * ((m + 30) * (m + 60)) := by
      have : 900 * ((K + 1) * (K + 2)) ≤ (m + 30) * (m + 60) := by
        calc 900 * ((K + 1) * (K + 2)) = (K * 30 + 30) * (K * 30 + 60) := by ring
          _ ≤ _ := by gcongr
      omega
    calc n * phiSum m 3 * 60 = n * (phiSum m 3 * 60) := by ring
      _ ≤ n * (8 * ((m + 30) * (m + 60))) := Nat.mul_le_mul_left _ e1
      _ = 8 * ((n * m) * m + (90 * (n * m) + 1800 * n)) := by ring
      _ ≤ _ := by gcongr; exact hn.1.2
  have hcard : ((Icc 1 y).filter (Rough 3)).card ≤ y := by
    refine le_trans (Finset.card_filter_le _ _) ?_
    simp
  rw [Finset.sum_mul]
  refine le_trans (Finset.sum_le_sum hterm) ?_
  rw [← Finset.mul_sum, Finset.sum_add_distrib, ← Finset.mul_sum, Finset.sum_const, smul_eq_mul]
  apply Nat.mul_le_mul_left
  have := Nat.mul_le_mul_right (90 * x + 1800 * y) hcard
  have e : y * (90 * x + 1800 * y) = 90 * x * y + 1800 * y * y := by ring
  omega

/-- `|S1|` for `c ≥ 3`, scaled by 60: `8 x (Σ_{n ≤ y, (n,30)=1} ⌊x/n⌋ + 90 y) + 14400 y²`. -/
theorem S1Abs_density {x y c : ℕ} (hc : 3 ≤ c) : S1Abs x y c * 60 ≤
    ((8 * (x * (∑ n ∈ (Icc 1 y).filter (Rough 3), x / n) + 90 * x * y + 1800 * y * y) : ℕ) : ℤ) := by
  have h1 : S1Abs x y c ≤ ((∑ n ∈ (Icc 1 y).filter (Rough 3), n * phiSum (x / n) 3 : ℕ) : ℤ) := by
    unfold S1Abs
    push_cast
    refine le_trans ?_ (Finset.sum_le_sum_of_subset_of_nonneg
      (show (Icc 1 y).filter (Rough c) ⊆ (Icc 1 y).filter (Rough 3) from ?_)
      (fun _ _ _ => by positivity))
    · apply Finset.sum_le_sum
      intro n _
      have h2 := abs_mu_le n
      have h3 : (phiSum (x / n) c : ℤ) ≤ phiSum (x / n) 3 := by exact_mod_cast phiSum_anti hc
      have h4 : (0:ℤ) ≤ n := by positivity
      have h5 : (0:ℤ) ≤ phiSum (x / n) c := by positivity
      calc |mu n| * (n : ℤ) * phiSum (x / n) c ≤ 1 * (n : ℤ) * phiSum (x / n) c := by gcongr
        _ ≤ (n : ℤ) * phiSum (x / n) 3 := by rw [one_mul]; gcongr
    · intro n
      simp only [mem_filter]
      rintro ⟨h1, h2⟩
      exact ⟨h1, h2.anti hc⟩
  have h2 := sum_phi3_le x y
  have h3 : (((∑ n ∈ (Icc 1 y).filter (Rough 3), n * phiSum (x / n) 3) * 60 : ℕ) : ℤ) ≤
    ((8 * (x * (∑ n ∈ (Icc 1 y).filter (Rough 3), x / n) + 90 * x * y + 1800 * y * y) : ℕ) : ℤ) := by
    exact_mod_cast h2
  refine le_trans (mul_le_mul_of_nonneg_right h1 (by norm_num)) ?_
  rw [Nat.cast_mul] at h3
  exact h3

/-- The ordinary leaves fit `int128_t` for 63-bit `x`. -/
theorem S1Abs_fits {x y c : ℕ} (hx : x < 2 ^ 63) (hy : y < 2 ^ 32) (hc : 3 ≤ c ∨ y < 8) :
    S1Abs x y c < 2 ^ 127 := by
  rcases hc with hc | hc
  · have h1 := S1Abs_density (x := x) (y := y) hc
    have h4 := sum_div_rough_le_ten x hy
    have h5 : 8 * (x * (∑ n ∈ (Icc 1 y).filter (Rough 3), x / n) + 90 * x * y + 1800 * y * y) ≤
        8 * (2 ^ 63 * (10 * 2 ^ 63) + 90 * 2 ^ 63 * 2 ^ 32 + 1800 * 2 ^ 32 * 2 ^ 32) := by
      have h6 := h4.trans (Nat.mul_le_mul_left 10 hx.le)
      gcongr
    have h6 : S1Abs x y c * 60 ≤
        ((8 * (2 ^ 63 * (10 * 2 ^ 63) + 90 * 2 ^ 63 * 2 ^ 32 + 1800 * 2 ^ 32 * 2 ^ 32) : ℕ) : ℤ) :=
      le_trans h1 (by exact_mod_cast h5)
    norm_num at h6 ⊢
    omega
  · have h1 := S1Abs_le x y c
    have h2 : Nat.log 2 y < 3 := by
      by_cases h0 : y = 0
      · rw [h0]; simp
      · exact Nat.log_lt_of_lt_pow h0 (by omega)
    have h3 : x * (x * (Nat.log 2 y + 1) + y) ≤ 2 ^ 63 * (2 ^ 63 * 3 + 8) := by gcongr; omega
    have h4 : S1Abs x y c * 2 ≤ ((2 ^ 63 * (2 ^ 63 * 3 + 8) : ℕ) : ℤ) :=
      le_trans h1 (by exact_mod_cast h3)
    norm_num at h4 ⊢
    omega

theorem S1Sum_fits {x y c : ℕ} (hx : x < 2 ^ 63) (hy : y < 2 ^ 32) (hc : 3 ≤ c ∨ y < 8) :
    |S1Sum x y c| < 2 ^ 127 := (abs_S1Sum_le_S1Abs x y c).trans_lt (S1Abs_fits hx hy hc)

end PS
