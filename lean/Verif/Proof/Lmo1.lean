import Verif.Proof.LmoTop

/-!
# pi_lmo1
-/

namespace PS
open Finset LawfulRes
open scoped Classical
local notation "π" => Nat.primeCounting

namespace Lmo

variable {x y c : ℕ} {primes lpf : Vec ℕ} {mu : Vec ℤ}

theorem abs_mu_le (n : ℕ) : -1 ≤ PS.mu n ∧ PS.mu n ≤ 1 := by
  rw [← abs_le]; exact ArithmeticFunction.abs_moebius_le_one

theorem mu_mul_bound (n : ℕ) {k : ℕ} (hk : k ≤ 2 ^ 100) : -2 ^ 100 ≤ PS.mu n * k ∧ PS.mu n * k ≤ 2 ^ 100 := by
  obtain ⟨h1, h2⟩ := abs_mu_le n
  generalize PS.mu n = u at *
  obtain h | h | h : u = -1 ∨ u = 0 ∨ u = 1 := by omega
  all_goals subst h; omega

theorem prm_lt_31 {y c : ℕ} (hc : c ≤ π y) (hy : y < 2 ^ 31) : prm c < 2 ^ 31 := by
  have h1 := prm_le_prm hc
  have h2 := prm_pi_le y
  omega

/-- `phi_sum(x / n, a) * k` for a small `k`. -/
theorem term_ok (n a : ℕ) (ha : prm a < 2 ^ 31) (hx : x / n < 2 * badK) {k : ℤ} (hk1 : -2 ^ 100 ≤ k) (hk2 : k ≤ 2 ^ 100) :
    Ok (phiSumM (x / n) a) (fun ph => Rep (I256.mul ph (I256.ofInt k)) (phiSum (x / n) a * k)) := by
  have hx' : x / n < 2 ^ 67 := by unfold badK at hx; omega
  refine (phiSumM_ok (x / n) a (by omega) ha (noWindow_of_lt a hx)).mono (fun ph hph => ?_)
  refine rep_mul (R := I256) _ _ _ _ (rep_of_val hph) (rep_ofInt (R := I256) k (by omega) (by omega)) 
    (by omega) ?_ (by omega) (by omega)
  have h1 := phiSum_le (x / n) a
  have h2 : x / n * (x / n + 1) ≤ 2 ^ 67 * 2 ^ 67 := Nat.mul_le_mul (by omega) (by omega)
  omega

/-- The condition `lpf[n] > primes[c]`. -/
theorem lpf_cond (hT : Tab y mu lpf) (h1 : 1 ≤ y → lpf.get 1 = 2 ^ 31 - 1) (hy31 : y < 2 ^ 31 - 1) (hP : PrimeTable primes (π y))
    {b n : ℕ} (hb : b ≤ π y) (hn : 1 ≤ n) (hny : n ≤ y) : lpf.get n > primes.get b ↔ Rough b n := by
  rcases Nat.eq_or_lt_of_le hn with rfl | hn2
  · refine ⟨fun _ => rough_one b, fun _ => ?_⟩
    rw [h1 hny]
    rcases Nat.eq_zero_or_pos b with rfl | hb0
    · rw [hP.2.1]; norm_num
    · rw [hP.2.2 b hb0 hb]
      have := (prm_le_iff_le_pi hb0).2 hb
      omega
  · rw [hT.lpf n hn2 hny]
    rcases Nat.eq_zero_or_pos b with rfl | hb0
    · rw [hP.2.1]
      exact ⟨fun _ => rough_zero n, fun _ => Nat.minFac_pos n⟩
    · rw [hP.2.2 b hb0 hb, rough_iff_lt_prm hb0]
      refine ⟨fun h p hp hd => lt_of_lt_of_le h (Nat.minFac_le_of_dvd hp.two_le hd), fun h => ?_⟩
      exact h _ (Nat.minFac_prime (by omega)) (Nat.minFac_dvd n)

/-- If `phi_sum(x, c)` is off by `E`, so is the result. -/
theorem s1Lmo1_off {E : ℤ} (hx : x < 4 * badK) (hx1 : Ok (phiSumM x c) (fun r => Rep r (phiSum x c + E)))
    (hE : 0 ≤ E) (hE2 : E ≤ 2 ^ 128) (hy1 : 1 ≤ y) (hT : Tab y mu lpf) (h1 : 1 ≤ y → lpf.get 1 = 2 ^ 31 - 1) (hy31 : y < 2 ^ 31 - 1)
    (hP : PrimeTable primes (π y)) (hc : c ≤ π y) :
    Ok (s1Lmo1 x y c primes lpf mu) (fun r => Rep r (S1Sum x y c + E)) := by
  have hS : S1Sum x y c = ∑ n ∈ Ico 1 (y + 1), if Rough c n then PS.mu n * n * phiSum (x / n) c else 0 := by
    unfold S1Sum
    rw [Finset.sum_filter]
    rfl
  rw [hS]
  unfold s1Lmo1
  refine (forUp_ok (fun i (s : I256) => Rep s ((∑ n ∈ Ico 1 i, if Rough c n then PS.mu n * n * phiSum (x / n) c else 0) +
    if 1 < i then E else 0)) ?_ (by omega) (fun n s hn1 hn2 hs => ?_)).mono (fun r hr => ?_)
  · rw [Finset.Ico_self, Finset.sum_empty, if_neg (by omega), add_zero]
    exact rep_ofInt (R := I256) 0 (by norm_num) (by norm_num)
  swap
  · rwa [if_pos (by omega)] at hr
  rw [Vec.rd_ok (by rw [hT.lpfS]; omega), Vec.rd_ok (by rw [hP.1]; omega)]
  simp only [ok_bind]
  rw [Finset.sum_Ico_succ_top hn1, if_pos (show 1 < n + 1 by omega)]
  have hcond := lpf_cond hT h1 hy31 hP hc hn1 (by omega)
  rcases Nat.eq_or_lt_of_le hn1 with rfl | hn2'
  · rw [if_pos (hcond.2 (rough_one c)), cdiv_ok (by omega)]
    simp only [ok_bind]
    rw [Nat.div_one]
    refine Ok.bind hx1 (fun ph hph => ?_)
    rw [Vec.rd_ok (by rw [hT.muS]; omega), hT.mu 1 le_rfl (by omega)]
    simp only [ok_bind]
    refine Ok.pure ?_
    rw [Finset.Ico_self, Finset.sum_empty, if_neg (by omega), add_zero] at hs
    have hle := phiSum_le x c
    have hle2 : x * (x + 1) ≤ 2 ^ 68 * 2 ^ 68 := by unfold badK at hx; exact Nat.mul_le_mul (by omega) (by omega)
    have hm := rep_mul (R := I256) _ _ _ _ hph (rep_ofInt (R := I256) 1 (by norm_num) (by norm_num))
      (by omega) (by omega) (by norm_num) (by norm_num)
    have := rep_add (R := I256) _ _ _ _ hs hm
    rw [if_pos (rough_one c), Finset.Ico_self, Finset.sum_empty]
    rw [show PS.mu 1 = 1 from ArithmeticFunction.moebius_apply_one]
    rw [show (ArithmeticFunction.moebius 1 : ℤ) * ((1 : ℕ) : ℤ) = 1 by simp]
    rw [show (0 + 1 * ((1 : ℕ) : ℤ) * (phiSum x c : ℤ) + E) = 0 + (phiSum x c + E) * 1 by push_cast; ring]
    exact this
  rw [if_pos (show 1 < n by omega)] at hs
  rw [add_right_comm]
  refine Ok.ite (fun h => ?_) (fun h => Ok.pure ?_)
  · rw [cdiv_ok (by omega)]
    simp only [ok_bind]
    have hm := mu_mul_bound n (k := n) (by omega)
    have hxn : x / n < 2 * badK := by
      have : x / n ≤ x / 2 := Nat.div_le_div_left hn2' (by omega)
      omega
    refine Ok.bind (term_ok n c (prm_lt_31 hc (by omega)) hxn (k := PS.mu n * n) hm.1 hm.2) (fun ph hph => ?_)
    rw [Vec.rd_ok (by rw [hT.muS]; omega), hT.mu n hn1 (by omega)]
    simp only [ok_bind]
    refine Ok.pure ?_
    rw [if_pos (hcond.1 h), mul_comm (PS.mu n * (n : ℤ))]
    exact rep_add (R := I256) _ _ _ _ hs hph
  · rw [if_neg (fun hr => h (hcond.2 hr)), add_zero]
    exact hs

/-- The sum over the special leaves as a double sum. -/
theorem S2Sum_double (x y c : ℕ) : S2Sum x y c = ∑ b ∈ Ico (c + 1) (π y), ∑ m ∈ Ico (y / prm b + 1) (y + 1),
    if Rough b m then leafTerm x (b, m) else 0 := by
  unfold S2Sum specialLeaves
  rw [Finset.sum_filter, Finset.sum_product]
  have hsub : Ico (c + 1) (π y) ⊆ Icc (c + 1) (π y) := fun b hb => by
    rw [Finset.mem_Ico] at hb; rw [Finset.mem_Icc]; omega
  rw [← Finset.sum_subset hsub]
  · refine Finset.sum_congr rfl (fun b hb => ?_)
    rw [Finset.mem_Ico] at hb
    have hp := (prm_prime b).pos
    have hsub2 : Ico (y / prm b + 1) (y + 1) ⊆ Icc 1 y := fun m hm => by
      rw [Finset.mem_Ico] at hm; rw [Finset.mem_Icc]
      exact ⟨le_trans (Nat.le_add_left 1 _) hm.1, by omega⟩
    rw [← Finset.sum_subset hsub2]
    · refine Finset.sum_congr rfl (fun m hm => ?_)
      rw [Finset.mem_Ico] at hm
      have hlt : y < m * prm b := by
        have := (Nat.div_lt_iff_lt_mul hp).1 (show y / prm b < m by omega)
        exact this
      by_cases hr : Rough b m
      · rw [if_pos hr]
        by_cases hsf : Squarefree m
        · rw [if_pos ⟨hlt, hsf, hr⟩]
        · rw [if_neg (fun h => hsf h.2.1)]
          unfold leafTerm
          simp only
          rw [show PS.mu m = 0 from ArithmeticFunction.moebius_eq_zero_of_not_squarefree hsf]
          simp
      · rw [if_neg hr, if_neg (fun h => hr h.2.2)]
    · intro m hm hm2
      rw [Finset.mem_Icc] at hm
      rw [Finset.mem_Ico] at hm2
      rw [if_neg]
      rintro ⟨h1, -, -⟩
      have := (Nat.div_lt_iff_lt_mul hp).2 h1
      omega
  · intro b hb hb2
    rw [Finset.mem_Icc] at hb
    rw [Finset.mem_Ico] at hb2
    have hbe : b = π y := by omega
    refine Finset.sum_eq_zero (fun m hm => ?_)
    rw [Finset.mem_Icc] at hm
    rw [if_neg]
    rintro ⟨h1, -, h3⟩
    rw [hbe, rough_pi_iff] at h3
    have hm1 : m ≠ 1 := by
      rintro rfl
      have := (prm_le_iff_le_pi (show 1 ≤ b by omega)).2 hb.2
      change y < 1 * prm b at h1
      omega
    have := h3 _ (Nat.minFac_prime hm1) (Nat.minFac_dvd m)
    have := Nat.minFac_le (show 0 < m by omega)
    omega

theorem s2Lmo1_ok (hx : x < 4 * badK) (hT : Tab y mu lpf) (h1 : 1 ≤ y → lpf.get 1 = 2 ^ 31 - 1) (hy31 : y < 2 ^ 31 - 1)
    (hP : PrimeTable primes (π y)) :
    Ok (s2Lmo1 x y c (π y) primes lpf mu) (fun r => Rep r (S2Sum x y c)) := by
  rw [S2Sum_double]
  have h0 : Rep (I256.ofInt 0) 0 := rep_ofInt (R := I256) 0 (by norm_num) (by norm_num)
  unfold s2Lmo1
  have key := forUp_ok' (lo := c + 1) (hi := π y) (s := I256.ofInt 0) (f := fun b s2 => do
    let pb ← primes.rd b
    let q ← cdiv y pb
    forUp (q + 1) (y + 1) s2 (fun m s2 => do
      let l ← lpf.rd m
      let pb ← primes.rd b
      if l > pb then do
        let xn ← cdiv x (pb * m)
        let ph ← phiSumM xn (b - 1)
        let mum ← mu.rd m
        pure (I256.sub s2 (I256.mul ph (I256.ofInt (mum * m * pb))))
      else pure s2))
    (fun i (s : I256) => Rep s (∑ b ∈ Ico (c + 1) i, ∑ m ∈ Ico (y / prm b + 1) (y + 1),
      if Rough b m then leafTerm x (b, m) else 0)) (by simpa using h0) ?_
  · refine key.mono (fun r hr => ?_)
    rcases le_total (c + 1) (π y) with h | h
    · rwa [max_eq_right h] at hr
    · rw [max_eq_left h] at hr
      rw [Finset.Ico_eq_empty_of_le h]
      rwa [Finset.Ico_self] at hr
  intro b s hb1 hb2 hs
  have hpb : primes.get b = prm b := hP.2.2 b (by omega) (by omega)
  have hpy := (prm_le_iff_le_pi (show 1 ≤ b by omega)).2 (show b ≤ π y by omega)
  have hp2 := (prm_prime b).two_le
  rw [Vec.rd_ok (by rw [hP.1]; omega), hpb]
  simp only [ok_bind]
  rw [cdiv_ok (by omega)]
  simp only [ok_bind]
  rw [Finset.sum_Ico_succ_top hb1]
  have hq1 : 1 ≤ y / prm b := Nat.div_pos hpy (by omega)
  have hqy : y / prm b ≤ y := Nat.div_le_self _ _
  generalize hB : (∑ b ∈ Ico (c + 1) b, ∑ m ∈ Ico (y / prm b + 1) (y + 1), if Rough b m then leafTerm x (b, m) else 0) = B at *
  refine forUp_ok (fun i (s : I256) => Rep s (B + ∑ m ∈ Ico (y / prm b + 1) i, if Rough b m then leafTerm x (b, m) else 0))
    (by simpa using hs) (by omega) (fun m s hm1 hm2 hs => ?_)
  rw [Vec.rd_ok (by rw [hT.lpfS]; omega)]
  simp only [ok_bind]
  rw [Finset.sum_Ico_succ_top hm1, ← add_assoc]
  have hcond := lpf_cond hT h1 hy31 hP (b := b) (n := m) (by omega) (by omega) (by omega)
  rw [hpb] at hcond
  refine Ok.ite (fun h => ?_) (fun h => Ok.pure ?_)
  · rw [cdiv_ok (Nat.mul_pos (by omega) (by omega))]
    simp only [ok_bind]
    have hmp : m * prm b ≤ 2 ^ 31 * 2 ^ 31 := Nat.mul_le_mul (by omega) (by omega)
    have hm := mu_mul_bound m (k := m * prm b) (by omega)
    push_cast at hm
    rw [← mul_assoc] at hm
    have hxn : x / (prm b * m) < 2 * badK := by
      have h2 : 2 * 1 ≤ prm b * m := Nat.mul_le_mul hp2 (by omega)
      have : x / (prm b * m) ≤ x / 2 := Nat.div_le_div_left (by omega) (by omega)
      omega
    refine Ok.bind (term_ok (prm b * m) (b - 1) (prm_lt_31 (y := y) (by omega) (by omega)) hxn (k := PS.mu m * m * prm b) hm.1 hm.2) (fun ph hph => ?_)
    rw [Vec.rd_ok (by rw [hT.muS]; omega), hT.mu m (by omega) (by omega)]
    simp only [ok_bind]
    refine Ok.pure ?_
    rw [if_pos (hcond.1 h)]
    have := rep_sub (R := I256) _ _ _ _ hs hph
    rw [show leafTerm x (b, m) = -((phiSum (x / (prm b * m)) (b - 1) : ℤ) * (PS.mu m * m * prm b)) by
      unfold leafTerm
      simp only
      rw [mul_comm (prm b) m]
      ring]
    rw [← sub_eq_add_neg]
    exact this
  · rw [if_neg (fun hr => h (hcond.2 hr)), add_zero]
    exact hs

/-- If `phi_sum(x, c)` is off by `E`, so is the result. -/
theorem piLmo1_off {e : Pi.Env} {E : ℤ} (hsched : e.schedP2.Valid) (hx2 : 2 ≤ x) (hx : x < 4 * badK)
    (hx1 : Ok (phiSumM x (min 6 (π (iroot 3 x)))) (fun r => Rep r (phiSum x (min 6 (π (iroot 3 x))) + E)))
    (hE : 0 ≤ E) (hE2 : E ≤ 2 ^ 128) {tiny : Vec PhiTiny.Tab} (ht : PhiTiny.Valid tiny 6) :
    Ok (piLmo1 e tiny x) (fun r => Rep r (primeSum x + E)) := by
  unfold piLmo1
  rw [if_neg (by omega)]
  dsimp only
  rw [Int.toNat_natCast, irootM_eq 3 _ _ (by norm_num), ok_bind]
  have h1 : 1 ≤ iroot 3 x := le_iroot (by norm_num) (by omega)
  have h2 := iroot_le 3 x (by norm_num)
  have h3 := lt_iroot_succ 3 x (by norm_num)
  generalize iroot 3 x = y at *
  have hx127 : x < 2 ^ 67 := by unfold badK at hx; omega
  have hy23 : y < 2 ^ 23 := by
    by_contra hc
    push Not at hc
    have : (2 ^ 23) ^ 3 ≤ y ^ 3 := Nat.pow_le_pow_left hc 3
    norm_num at this
    omega
  rw [Phi.piLegendre_ok ht hsched _ (by omega), ok_bind, PhiTiny.getC_ok, ok_bind,
    generatePrimesT_eq (show y < 2 ^ 31 by omega), ok_bind]
  refine Ok.bind (generateLpf_ok (show y < 2 ^ 31 by omega)) (fun lpf hlpf => ?_)
  refine Ok.bind (generateMoebius_ok (show y < 2 ^ 31 by omega)) (fun mu hmu => ?_)
  have hT := tables_ok y hmu hlpf
  have hP := generatePrimes_table y
  refine Ok.bind (s1Lmo1_off hx hx1 hE hE2 h1 hT hlpf.2.2 (by omega) hP (by omega)) (fun s1 hs1 => ?_)
  rw [Int.toNat_natCast]
  refine Ok.bind (s2Lmo1_ok hx hT hlpf.2.2 (by omega) hP) (fun s2 hs2 => ?_)
  refine Ok.bind (P2_val ht hsched e.timeP2 le_rfl (show x < 2 ^ 124 by omega) (by omega)
    (z62_of_lt hx127 h1 h3)) (fun p2 hp2 => ?_)
  rw [P2.primeSumTiny_ok (by omega)]
  simp only [ok_bind]
  refine Ok.pure ?_
  exact combine (by omega) h1 (le_trans (Nat.le_self_pow (by norm_num) y) h2) h3 (by omega : min 6 (π y) ≤ π y)
    hs1 hs2 (rep_of_val hp2) rfl (by omega)

end Lmo
end PS
