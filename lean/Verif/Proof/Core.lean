import Verif.Proof.Primes

/-!
# The arithmetic identities behind the program

Legendre recursion, ordinary/special leaf decomposition (Lagarias–Miller–Odlyzko) and Meissel's
formula, each for sums of numbers instead of counts.
-/

namespace PS

open Finset Nat
open scoped Classical

local notation "π" => Nat.primeCounting

/-- Sum of a function over the rough numbers, split by divisibility by the next prime. -/
theorem sum_rough_split {R : Type*} [AddCommMonoid R] (f : ℕ → R) (x a : ℕ) :
    ∑ n ∈ (Icc 1 x).filter (Rough a), f n =
      ∑ n ∈ (Icc 1 x).filter (Rough (a + 1)), f n +
      ∑ m ∈ (Icc 1 (x / prm (a + 1))).filter (Rough a), f (m * prm (a + 1)) := by
  have hp := prm_pos (a + 1)
  rw [← Finset.sum_filter_add_sum_filter_not ((Icc 1 x).filter (Rough a))
    (fun n => ¬ prm (a + 1) ∣ n)]
  congr 1
  · apply Finset.sum_congr _ (fun _ _ => rfl)
    ext n
    simp only [mem_filter, rough_succ, and_assoc]
  · symm
    apply Finset.sum_bij (fun m _ => m * prm (a + 1))
    · intro m hm
      simp only [mem_filter, mem_Icc] at hm ⊢
      obtain ⟨⟨h1, h2⟩, h3⟩ := hm
      have := (Nat.le_div_iff_mul_le hp).1 h2
      refine ⟨⟨⟨Nat.mul_pos h1 hp, this⟩, ?_⟩, ?_⟩
      · exact rough_mul.2 ⟨h3, (rough_prm (by omega)).2 (by omega)⟩
      · simp
    · intro m _ m' _ h
      exact Nat.eq_of_mul_eq_mul_right hp h
    · intro n hn
      simp only [mem_filter, mem_Icc, not_not] at hn
      obtain ⟨⟨⟨h1, h2⟩, h3⟩, h4⟩ := hn
      obtain ⟨k, rfl⟩ := h4
      refine ⟨k, ?_, Nat.mul_comm _ _⟩
      simp only [mem_filter, mem_Icc]
      refine ⟨⟨Nat.pos_of_ne_zero (by rintro rfl; simp at h1), ?_⟩, (rough_mul.1 h3).2⟩
      rw [Nat.le_div_iff_mul_le hp, Nat.mul_comm]; exact h2
    · intro m _; rfl

theorem phiSum_succ (x a : ℕ) :
    phiSum x a = phiSum x (a + 1) + prm (a + 1) * phiSum (x / prm (a + 1)) a := by
  unfold phiSum
  rw [sum_rough_split, ← Finset.sum_mul, Nat.mul_comm]

theorem phi_succ (x a : ℕ) : phi x a = phi x (a + 1) + phi (x / prm (a + 1)) a := by
  unfold phi
  simp only [Finset.card_eq_sum_ones]
  rw [sum_rough_split]

theorem phi_zero (x : ℕ) : phi x 0 = x := by simp [phi]

theorem phiSum_zero_mul_two (x : ℕ) : phiSum x 0 * 2 = x * (x + 1) := by
  unfold phiSum
  simp only [rough_zero, Finset.filter_true]
  induction x with
  | zero => simp
  | succ n ih =>
    rw [Finset.sum_Icc_succ_top (by omega), Nat.add_mul, ih]; ring

theorem phiSum_zero (x : ℕ) : phiSum x 0 = x * (x + 1) / 2 := by
  have := phiSum_zero_mul_two x; omega

theorem phi_anti {x a b : ℕ} (h : a ≤ b) : phi x b ≤ phi x a := by
  apply Finset.card_le_card
  intro n; simp only [mem_filter]; exact fun hn => ⟨hn.1, hn.2.anti h⟩

theorem phiSum_anti {x a b : ℕ} (h : a ≤ b) : phiSum x b ≤ phiSum x a := by
  apply Finset.sum_le_sum_of_subset
  intro n; simp only [mem_filter]; exact fun hn => ⟨hn.1, hn.2.anti h⟩

theorem phiSum_mono {x x' a : ℕ} (h : x ≤ x') : phiSum x a ≤ phiSum x' a := by
  apply Finset.sum_le_sum_of_subset
  intro n; simp only [mem_filter, mem_Icc]; exact fun hn => ⟨⟨hn.1.1, hn.1.2.trans h⟩, hn.2⟩

/-! ## Ordinary and special leaves -/

/-- `S1Sum` one level deeper. -/
theorem S1Sum_succ (x y b : ℕ) :
    S1Sum x y (b + 1) = S1Sum x y b +
      ∑ m ∈ (Icc 1 y).filter (fun m => y < m * prm (b + 1) ∧ Squarefree m ∧ Rough (b + 1) m),
        leafTerm x (b + 1, m) := by
  have hp := prm_pos (b + 1)
  have hpp := prm_prime (b + 1)
  -- expand the level b sum
  have e1 : S1Sum x y b = ∑ n ∈ (Icc 1 y).filter (Rough (b + 1)), mu n * n * phiSum (x / n) b +
      ∑ m ∈ (Icc 1 (y / prm (b + 1))).filter (Rough b),
        mu (m * prm (b + 1)) * ((m * prm (b + 1) : ℕ) : ℤ) * phiSum (x / (m * prm (b + 1))) b := by
    unfold S1Sum
    rw [sum_rough_split]
  -- terms divisible by p² vanish
  have e2 : ∑ m ∈ (Icc 1 (y / prm (b + 1))).filter (Rough b),
        mu (m * prm (b + 1)) * ((m * prm (b + 1) : ℕ) : ℤ) * phiSum (x / (m * prm (b + 1))) b =
      - ∑ m ∈ (Icc 1 y).filter (fun m => m * prm (b + 1) ≤ y ∧ Rough (b + 1) m),
        mu m * ((m * prm (b + 1) : ℕ) : ℤ) * phiSum (x / (m * prm (b + 1))) b := by
    rw [← Finset.sum_neg_distrib]
    symm
    apply Finset.sum_subset_zero_on_sdiff
    · intro m
      simp only [mem_filter, mem_Icc]
      rintro ⟨⟨h1, h2⟩, h3, h4⟩
      exact ⟨⟨h1, (Nat.le_div_iff_mul_le hp).2 h3⟩, h4.anti (by omega)⟩
    · intro m hm
      simp only [mem_sdiff, mem_filter, mem_Icc] at hm
      obtain ⟨⟨⟨h1, h2⟩, h3⟩, h4⟩ := hm
      have h5 := (Nat.le_div_iff_mul_le hp).1 h2
      have h6 : prm (b + 1) ∣ m := by
        by_contra hc
        apply h4
        refine ⟨⟨h1, ?_⟩, h5, rough_succ.2 ⟨h3, hc⟩⟩
        calc m ≤ m * prm (b + 1) := Nat.le_mul_of_pos_right _ hp
          _ ≤ y := h5
      have : mu (m * prm (b + 1)) = 0 := by
        apply ArithmeticFunction.moebius_eq_zero_of_not_squarefree
        intro hs
        have := hs (prm (b + 1)) (Nat.mul_dvd_mul_right h6 _)
        exact hpp.one_lt.ne' (Nat.isUnit_iff.1 this)
      rw [this]; ring
    · intro m hm
      simp only [mem_filter, mem_Icc] at hm
      obtain ⟨⟨h1, h2⟩, h3, h4⟩ := hm
      have hco : Nat.Coprime m (prm (b + 1)) :=
        ((hpp.coprime_iff_not_dvd).2 (rough_succ.1 h4).2).symm
      have : mu (m * prm (b + 1)) = - mu m := by
        unfold mu
        rw [ArithmeticFunction.isMultiplicative_moebius.map_mul_of_coprime hco,
          ArithmeticFunction.moebius_apply_prime hpp]
        ring
      rw [this]; ring
  -- expand the level b+1 sum
  have e3 : S1Sum x y (b + 1) =
      ∑ n ∈ (Icc 1 y).filter (Rough (b + 1)), mu n * n * phiSum (x / n) b -
      ∑ m ∈ (Icc 1 y).filter (Rough (b + 1)),
        mu m * ((m * prm (b + 1) : ℕ) : ℤ) * phiSum (x / (m * prm (b + 1))) b := by
    unfold S1Sum
    rw [← Finset.sum_sub_distrib]
    apply Finset.sum_congr rfl
    intro n _
    have := phiSum_succ (x / n) b
    rw [Nat.div_div_eq_div_mul] at this
    rw [this]; push_cast; ring
  have e4 : ∑ m ∈ (Icc 1 y).filter (Rough (b + 1)),
        mu m * ((m * prm (b + 1) : ℕ) : ℤ) * phiSum (x / (m * prm (b + 1))) b =
      ∑ m ∈ (Icc 1 y).filter (fun m => m * prm (b + 1) ≤ y ∧ Rough (b + 1) m),
        mu m * ((m * prm (b + 1) : ℕ) : ℤ) * phiSum (x / (m * prm (b + 1))) b -
      ∑ m ∈ (Icc 1 y).filter (fun m => y < m * prm (b + 1) ∧ Squarefree m ∧ Rough (b + 1) m),
        leafTerm x (b + 1, m) := by
    rw [← Finset.sum_filter_add_sum_filter_not ((Icc 1 y).filter (Rough (b + 1)))
      (fun m => m * prm (b + 1) ≤ y), sub_eq_add_neg, ← Finset.sum_neg_distrib]
    congr 1
    · apply Finset.sum_congr _ (fun _ _ => rfl)
      ext m; simp only [mem_filter]; tauto
    · symm
      apply Finset.sum_subset_zero_on_sdiff
      · intro m; simp only [mem_filter]
        rintro ⟨h1, h2, h3, h4⟩
        exact ⟨⟨h1, h4⟩, by omega⟩
      · intro m hm
        simp only [mem_sdiff, mem_filter] at hm
        obtain ⟨⟨⟨h1, h2⟩, h3⟩, h4⟩ := hm
        have : ¬ Squarefree m := fun hs => h4 ⟨h1, by omega, hs, h2⟩
        rw [show mu m = 0 from ArithmeticFunction.moebius_eq_zero_of_not_squarefree this]; ring
      · intro m _
        simp only [leafTerm, Nat.add_sub_cancel]
        push_cast; ring
  rw [e3, e4, e1, e2]; ring

/-- Sum over all special leaves, organised by `b`. -/
theorem S2Sum_eq (x y c : ℕ) : S2Sum x y c =
    ∑ b ∈ Icc (c + 1) (π y), ∑ m ∈ (Icc 1 y).filter
      (fun m => y < m * prm b ∧ Squarefree m ∧ Rough b m), leafTerm x (b, m) := by
  unfold S2Sum specialLeaves
  rw [Finset.sum_filter, Finset.sum_product]
  apply Finset.sum_congr rfl
  intro b _
  rw [Finset.sum_filter]

theorem S1Sum_top (x y : ℕ) (hy : 1 ≤ y) : S1Sum x y (π y) = phiSum x (π y) := by
  unfold S1Sum
  rw [Finset.sum_eq_single 1]
  · simp
  · intro n hn h1
    exfalso
    simp only [mem_filter, mem_Icc] at hn
    have := (rough_pi_iff.1 hn.2) _ (Nat.minFac_prime h1) (Nat.minFac_dvd n)
    have := Nat.minFac_le (show 0 < n by omega)
    omega
  · intro h
    exfalso; apply h
    simp [hy]

/-- **Ordinary plus special leaves** (Lagarias–Miller–Odlyzko): `φ(x, π(y)) = S1 + S2`. -/
theorem phiSum_eq_S1_add_S2 (x y c : ℕ) (hy : 1 ≤ y) (hc : c ≤ π y) :
    (phiSum x (π y) : ℤ) = S1Sum x y c + S2Sum x y c := by
  rw [← S1Sum_top x y hy, S2Sum_eq]
  generalize π y = a at *
  induction a, hc using Nat.le_induction with
  | base => simp
  | succ b hb ih =>
    rw [S1Sum_succ, ih, Finset.sum_Icc_succ_top (by omega)]
    ring

/-! ## Meissel's formula -/

theorem rough_small {x y n : ℕ} (hxy : x < (y + 1) ^ 3) (hn1 : n ≠ 1) (hn0 : 1 ≤ n) (hn : n ≤ x)
    (hr : Rough (π y) n) :
    (n.Prime ∧ y < n) ∨ (∃ p q, p.Prime ∧ q.Prime ∧ y < p ∧ y < q ∧ n = p * q) := by
  rw [rough_pi_iff] at hr
  have hp := Nat.minFac_prime hn1
  have hpd := Nat.minFac_dvd n
  have hyp := hr _ hp hpd
  obtain ⟨k, hk⟩ := hpd
  by_cases hk1 : k = 1
  · left
    rw [hk1, Nat.mul_one] at hk
    rw [← hk] at hp hyp
    exact ⟨hp, hyp⟩
  · right
    have hkd : k ∣ n := ⟨n.minFac, by rw [Nat.mul_comm]; exact hk⟩
    have hq := Nat.minFac_prime hk1
    have hqd := Nat.minFac_dvd k
    have hyq := hr _ hq (hqd.trans hkd)
    obtain ⟨l, hl⟩ := hqd
    by_cases hl1 : l = 1
    · rw [hl1, Nat.mul_one] at hl
      rw [← hl] at hq hyq
      exact ⟨_, _, hp, hq, hyp, hyq, hk⟩
    · exfalso
      have hld : l ∣ n := (Dvd.intro_left _ hl.symm).trans hkd
      have hs := Nat.minFac_prime hl1
      have hys := hr _ hs ((Nat.minFac_dvd l).trans hld)
      have hl0 : 0 < l := Nat.pos_of_ne_zero (by rintro rfl; simp at hl; subst hl; simp at hk; omega)
      have hsl := Nat.minFac_le hl0
      have h1 : (y + 1) * ((y + 1) * (y + 1)) ≤ n.minFac * (k.minFac * l) :=
        Nat.mul_le_mul (by omega) (Nat.mul_le_mul (by omega) (by omega))
      rw [← hl, ← hk] at h1
      have : (y + 1) ^ 3 = (y + 1) * ((y + 1) * (y + 1)) := by ring
      omega

/-- **Meissel's formula** for sums. -/
theorem meissel (x y : ℕ) (hx : 1 ≤ x) (hyx : y ≤ x) (hxy : x < (y + 1) ^ 3) :
    phiSum x (π y) + primeSum y = 1 + primeSum x + P2Sum x y := by
  have e1 : phiSum x (π y) = 1 + ∑ p ∈ (Icc (y + 1) x).filter Nat.Prime, p + P2Sum x y := by
    unfold phiSum P2Sum
    have hd1 : Disjoint ({1} : Finset ℕ) ((Icc (y + 1) x).filter Nat.Prime) := by
      rw [Finset.disjoint_left]
      intro n hn; simp only [mem_singleton] at hn; subst hn
      simp [Nat.not_prime_one]
    have hd2 : Disjoint (({1} : Finset ℕ) ∪ ((Icc (y + 1) x).filter Nat.Prime))
        ((Icc 1 x).filter (fun n => ∃ p q, p.Prime ∧ q.Prime ∧ y < p ∧ y < q ∧ n = p * q)) := by
      rw [Finset.disjoint_left]
      intro n hn hn'
      simp only [mem_union, mem_singleton, mem_filter, mem_Icc] at hn hn'
      obtain ⟨_, p, q, hp, hq, _, _, rfl⟩ := hn'
      rcases hn with hn | hn
      · have := Nat.mul_le_mul hp.two_le hq.two_le
        omega
      · exact Nat.not_prime_mul hp.one_lt.ne' hq.one_lt.ne' hn.2
    have : (Icc 1 x).filter (Rough (π y)) = (({1} : Finset ℕ) ∪ ((Icc (y + 1) x).filter Nat.Prime)) ∪
        ((Icc 1 x).filter (fun n => ∃ p q, p.Prime ∧ q.Prime ∧ y < p ∧ y < q ∧ n = p * q)) := by
      ext n
      simp only [mem_union, mem_singleton, mem_filter, mem_Icc]
      constructor
      · rintro ⟨⟨h1, h2⟩, h3⟩
        by_cases hn1 : n = 1
        · left; left; exact hn1
        · rcases rough_small hxy hn1 h1 h2 h3 with h | h
          · left; right; exact ⟨⟨h.2, h2⟩, h.1⟩
          · right; exact ⟨⟨h1, h2⟩, h⟩
      · rintro ((rfl | ⟨⟨h1, h2⟩, h3⟩) | ⟨h1, p, q, hp, hq, h3, h4, rfl⟩)
        · exact ⟨⟨le_rfl, hx⟩, rough_one _⟩
        · refine ⟨⟨h3.one_lt.le, h2⟩, rough_pi_iff.2 ?_⟩
          intro p hp hd
          rw [(Nat.prime_dvd_prime_iff_eq hp h3).1 hd]; omega
        · refine ⟨h1, rough_mul.2 ⟨rough_pi_iff.2 ?_, rough_pi_iff.2 ?_⟩⟩
          · intro r hr hd
            rwa [(Nat.prime_dvd_prime_iff_eq hr hp).1 hd]
          · intro r hr hd
            rwa [(Nat.prime_dvd_prime_iff_eq hr hq).1 hd]
    rw [this, Finset.sum_union hd2, Finset.sum_union hd1, Finset.sum_singleton]
  have e2 : primeSum x = primeSum y + ∑ p ∈ (Icc (y + 1) x).filter Nat.Prime, p := by
    unfold primeSum
    rw [← Finset.sum_union]
    · apply Finset.sum_congr _ (fun _ _ => rfl)
      ext n; simp only [mem_union, mem_filter, mem_range, mem_Icc]
      constructor
      · rintro ⟨h1, h2⟩
        by_cases h : n < y + 1
        · exact Or.inl ⟨h, h2⟩
        · exact Or.inr ⟨⟨by omega, by omega⟩, h2⟩
      · rintro (⟨h1, h2⟩ | ⟨⟨h1, h2⟩, h3⟩)
        · exact ⟨by omega, h2⟩
        · exact ⟨by omega, h3⟩
    · rw [Finset.disjoint_left]
      intro n hn hn'
      simp only [mem_filter, mem_range, mem_Icc] at hn hn'
      omega
  omega

/-- The formula the program evaluates. -/
theorem primeSum_eq (x y c : ℕ) (hx : 1 ≤ x) (hy : 1 ≤ y) (hyx : y ≤ x) (hxy : x < (y + 1) ^ 3)
    (hc : c ≤ π y) :
    (primeSum x : ℤ) = S1Sum x y c + S2Sum x y c + primeSum y - 1 - P2Sum x y := by
  have h1 := meissel x y hx hyx hxy
  have h2 := phiSum_eq_S1_add_S2 x y c hy hc
  have : ((phiSum x (π y) + primeSum y : ℕ) : ℤ) = ((1 + primeSum x + P2Sum x y : ℕ) : ℤ) := by
    rw [h1]
  push_cast at this
  linarith

theorem primeSum_mono {x x' : ℕ} (h : x ≤ x') : primeSum x ≤ primeSum x' := by
  apply Finset.sum_le_sum_of_subset
  intro n; simp only [mem_filter, mem_range]; exact fun hn => ⟨by omega, hn.2⟩

theorem primeSum_lt_two {x : ℕ} (h : x < 2) : primeSum x = 0 := by
  unfold primeSum
  apply Finset.sum_eq_zero
  intro n hn
  simp only [mem_filter, mem_range] at hn
  have := hn.2.two_le
  omega

theorem primeSum_succ (x : ℕ) :
    primeSum (x + 1) = primeSum x + if (x + 1).Prime then x + 1 else 0 := by
  unfold primeSum
  rw [Finset.range_add_one (n := x + 1), Finset.filter_insert]
  split
  · rw [Finset.sum_insert (by simp)]; ring
  · simp

end PS
