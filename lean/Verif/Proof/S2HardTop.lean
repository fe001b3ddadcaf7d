import Verif.Proof.S2HardMaster
import Verif.Proof.LeafBounds
import Verif.Proof.Mod64

/-!
# S2_hard as a whole
-/

namespace PS
open Finset Cfg
open scoped Classical
open Res LawfulRes
local notation "π" => Nat.primeCounting

namespace S2Hard

set_option linter.unusedSectionVars false

variable {R : Type} [Res R] [Inhabited R]

/-- The parameters of S2_hard. -/
noncomputable def cfg (x y c : ℕ) : Cfg := ⟨x, y, c, π (Nat.sqrt y), x / y⟩

theorem cfg_H {x y c : ℕ} : (cfg x y c).H = hardLeaves x y c := by
  unfold Cfg.H hardLeaves cfg
  apply Finset.filter_congr
  rintro ⟨b, m⟩ h
  unfold specialLeaves at h
  simp only [Finset.mem_filter, Finset.mem_product, Finset.mem_Icc] at h
  dsimp only
  rw [← prm_le_iff_le_pi (by omega), Nat.le_sqrt]

theorem cfg_good {x y c : ℕ} (hy : 1 ≤ y) (hyx : y * y ≤ x) : (cfg x y c).Good :=
  ⟨hy, hyx, Nat.le_succ _⟩

theorem y_le_z {x y : ℕ} (hy : 1 ≤ y) (hyx : y * y ≤ x) : y ≤ x / y := (Nat.le_div_iff_mul_le hy).2 hyx

/-- The table used by `master` covers everything that is looked up. -/
theorem cfg_tctx {x y c : ℕ} {primes factors : Vec ℕ} {pi : PiTable} (hP : PrimePrefix primes (π (min y (x / y / Nat.sqrt y)))) (hy : 1 ≤ y) (hyx : y * y ≤ x) (hc : 4 ≤ c ∨ π y ≤ c)
    (hc10 : c < 10) (hy63 : y < 2 ^ 63) (hF : FT (cfg x y c) factors) (hv : pi.Valid) (hmax : pi.max = x / y / Nat.sqrt y) :
    TCtx (cfg x y c) (x / y) (π (min y (x / y / Nat.sqrt y))) primes factors pi := by
  have hz := y_le_z hy hyx
  have hs1 : 1 ≤ Nat.sqrt y := Nat.sqrt_pos.2 hy
  have hsz : Nat.sqrt y ≤ Nat.sqrt (x / y) := Nat.sqrt_le_sqrt hz
  have hsqz : Nat.sqrt (x / y) ≤ x / y / Nat.sqrt y := by
    rw [Nat.le_div_iff_mul_le hs1]
    exact le_trans (Nat.mul_le_mul_left _ hsz) (Nat.sqrt_le _)
  refine ⟨cfg_good hy hyx, hc, hc10, hy63, rfl, rfl, hz, hF, ⟨hP, ?_, hv, ?_, rfl⟩, ?_, ?_⟩
  · intro m hm hmy
    rw [hmax] at hm
    exact pi_mono (le_min hmy hm)
  · intro b hb
    rw [hmax]
    apply Nat.div_le_div_left _ hs1
    have : Nat.sqrt y < prm b := by
      rw [lt_prm_iff_pi_lt (by omega)]
      exact hb
    omega
  · rw [hmax]; exact hsz.trans hsqz
  · rw [hmax]; exact hsqz

theorem cfg_Mu {x y c : ℕ} (hyx : y * y ≤ x) (hc : 4 ≤ c ∨ π y ≤ c) (hx : x < 2 ^ 103) (hz : x / y < 2 ^ 62) (b lo hi : ℕ) :
    (-2 ^ 127 ≤ (cfg x y c).Mu coef b lo hi ∧ (cfg x y c).Mu coef b lo hi < 2 ^ 127) ∧ (cfg x y c).Mu acoef b lo hi < 2 ^ 127 := by
  by_cases hb : (cfg x y c).S < b
  · exact Mu_bound_K hb (show (cfg x y c).K < 2 ^ 62 from hz)
  · have hy52 : y < 2 ^ 52 := by
      by_contra hcc
      have : 2 ^ 52 * 2 ^ 52 ≤ y * y := Nat.mul_le_mul (by omega) (by omega)
      omega
    have hsq : Nat.sqrt y < 2 ^ 26 := by
      rw [Nat.sqrt_lt']
      omega
    by_cases hb0 : b = 0
    · subst hb0
      have : (cfg x y c).Lv 0 lo hi = ∅ := by
        rw [Finset.eq_empty_iff_forall_notMem]
        intro m hm
        have := leaf_gt (mem_H.1 (mem_Lv.1 hm).1).1
        omega
      unfold Mu
      rw [this]; norm_num
    · refine Mu_bound (B := Nat.sqrt y) (hc.imp (by unfold cfg; dsimp only; omega) id) ?_ ?_
      · rw [prm_le_iff_le_pi (by omega)]; exact not_lt.1 hb
      · show Nat.sqrt y * (8 * ((y + 30) * (y + 60))) < 2 ^ 127 * 60
        have h1 : (y + 30) * (y + 60) ≤ x + 90 * 2 ^ 52 + 1800 := by
          have : (y + 30) * (y + 60) = y * y + 90 * y + 1800 := by ring
          omega
        calc Nat.sqrt y * (8 * ((y + 30) * (y + 60))) ≤ 2 ^ 26 * (8 * (x + 90 * 2 ^ 52 + 1800)) := by
              gcongr
          _ < 2 ^ 127 * 60 := by omega

/-- Up to here the sieved sums are right: for `m = 0` exactly, for `m = 2^64` in their low 64 bits.  The bound on the
number of threads keeps `low + 2 * segment_size * segments_per_thread * threads` (S2LoadBalancer.cpp:224) below `2^63`. -/
def InReach (m : ℤ) (x y c : ℕ) (threads : ℤ) : Prop :=
  (x / y + 129 < 2 ^ 59 ∧ (4 ≤ c ∨ x / y + 129 < 2 ^ 58)) ∨
  (m ∣ 2 ^ 64 ∧ x / y + 129 < 2 ^ 61 + 2 ^ 58 ∧ 1024 ≤ y ∧ threads ≤ 2 ^ 26)

/-- `S2_hard_OpenMP_master`, with a bound for the intermediate results. -/
theorem master_rep (S : BRes R) {e : Env} {x y c : ℕ} {primes factors : Vec ℕ} (hP : PrimePrefix primes (π (min y (x / y / Nat.sqrt y)))) {threads : ℤ} (hs : e.sched.Valid)
    (hy : 1 ≤ y) (hyx : y * y ≤ x) (hc : 4 ≤ c ∨ π y ≤ c) (hc10 : c < 10) (hx : x < 2 ^ 103) (hz : InReach S.mod x y c threads)
    (hF : FT (cfg x y c) factors) :
    Ok (master R e x y (x / y) c primes factors threads)
      (fun r => S.Rep r (S2HardSum x y c) (∑ bm ∈ hardLeaves x y c, |leafTerm x bm|)) := by
  have hs1 : 1 ≤ Nat.sqrt y := Nat.sqrt_pos.2 hy
  have hyz := y_le_z hy hyx
  unfold master
  obtain ⟨n, hn, hnt⟩ : ∃ n : ℤ, idealNumThreads threads (x / y : ℕ) (10 ^ 5) = .ok n ∧ n ≤ max 1 threads := by
    unfold idealNumThreads
    dsimp only
    rw [if_neg (by norm_num)]
    simp only [pure_eq_ok, ok_bind]
    exact ⟨_, rfl, by omega⟩
  have hz62 : x / y + 129 < 2 ^ 62 := by unfold InReach at hz; omega
  rw [hn]
  simp only [ok_bind]
  rw [fit_ok (by omega), ok_bind, cdiv_ok hs1]
  simp only [ok_bind]
  have hx1 : 1 ≤ x := le_trans (Nat.mul_pos hy hy) hyx
  refine Ok.bind (LB.init_ok (log := e.log) (threads := n.toNat) hx1 hy le_rfl (by unfold InReach at hz; omega) (by omega) (by omega)) (fun lb hlb => ?_)
  refine Ok.bind (PiTable.build_ok _) (fun pi hpi => ?_)
  have hT := cfg_tctx hP hy hyx hc hc10 (by omega) hF hpi.2 hpi.1
  rw [PiTable.at_ok hpi.2 (hT.sqrtz)]
  simp only [ok_bind]
  obtain ⟨alpha, halpha, -⟩ := LB.getAlphaXY_ok hx1 hy (by omega) (by omega)
  rw [halpha, ok_bind]
  have hk := masterLoop_ok (w := 127) le_rfl (R := R) (S := S) (cfg_good (c := c) hy hyx) (limit := x / y + 1) (Mx := π (Nat.sqrt (x / y)) + 1) (threads := n.toNat)
    (th := fun ss spt i low => thread R (fewLeaves y alpha) x y (x / y) c primes factors pi ss spt i low (x / y + 1))
    (log := e.log) (times := e.times) hs (by omega) hlb (fun b lo hi => ⟨(cfg_Mu hyx hc hx (by omega) b lo hi).1, S.lim_small _ (cfg_Mu hyx hc hx (by omega) b lo hi).2⟩) (by unfold InReach at hz; omega) ?_
  · refine hk.mono (fun r hr => ?_)
    rw [show max 1 (x / y + 1) = x / y + 1 by omega] at hr
    unfold fA at hr
    have hz1 : (cfg x y c).x / (cfg x y c).y < x / y + 1 := Nat.lt_succ_self _
    rw [total (cfg_good hy hyx) hz1, total_abs (cfg_good hy hyx) hz1, cfg_H] at hr
    exact hr
  · intro ss spt i low h1 h2 h3 h4 h5
    refine thread_ok hT h1 h2 h3 (by omega) ?_ ?_ h4 h5 (by omega)
    · rcases hz with hz | hz
      · exact Or.inr (by omega)
      · exact Or.inl hz.1
    · rcases hz with hz | hz
      · exact Or.inr (hz.2.imp id (by omega))
      · exact Or.inl hz.1

theorem master_ok [LawfulRes R] {e : Env} {x y c : ℕ} {primes factors : Vec ℕ} (hP : PrimePrefix primes (π (min y (x / y / Nat.sqrt y)))) {threads : ℤ} (hs : e.sched.Valid)
    (hy : 1 ≤ y) (hyx : y * y ≤ x) (hc : 4 ≤ c ∨ π y ≤ c) (hc10 : c < 10) (hx : x < 2 ^ 103) (hz : x / y + 129 < 2 ^ 59)
    (hz' : 4 ≤ c ∨ x / y + 129 < 2 ^ 58) (hF : FT (cfg x y c) factors) :
    Ok (master R e x y (x / y) c primes factors threads) (fun r => Rep r (S2HardSum x y c)) :=
  master_rep (BRes.lawful R) hP hs hy hyx hc hc10 hx (Or.inl ⟨hz, hz'⟩) hF

theorem hard_le {x y c : ℕ} {N : ℕ} (h1 : y * Nat.sqrt y ≤ N) (h2 : x / y ≤ N) :
    ∀ bm ∈ hardLeaves x y c, bm.2 * prm bm.1 ≤ N := by
  rintro ⟨b, m⟩ h
  unfold hardLeaves specialLeaves at h
  simp only [Finset.mem_filter, Finset.mem_product, Finset.mem_Icc] at h
  rcases h.2 with h3 | h3
  · exact le_trans (Nat.mul_le_mul h.1.1.2.2 (Nat.le_sqrt.2 h3)) h1
  · exact h3.trans h2

theorem z_le {x y : ℕ} (hx : x < 2 ^ 63) (hxy : x < (y + 1) ^ 3) : x / y ≤ 2 ^ 48 := by
  rcases Nat.eq_zero_or_pos y with rfl | hy0
  · simp
  by_contra hcc
  push Not at hcc
  have h1 : 2 ^ 48 * y ≤ x := (Nat.le_div_iff_mul_le hy0).1 hcc.le
  have h2 : y < 2 ^ 15 := by omega
  have h3 : (y + 1) ^ 3 ≤ (2 ^ 15) ^ 3 := Nat.pow_le_pow_left (by omega) 3
  norm_num at h3 h1
  omega

/-- The contributions of the hard leaves fit `int128_t` whenever that type is used. -/
theorem sum_abs_hard_fits {x y c : ℕ} (hx : x < 2 ^ 63) (hyx : y * y ≤ x) (hxy : x < (y + 1) ^ 3)
    (hc : 6 ≤ c ∨ π y ≤ c) : ∑ bm ∈ hardLeaves x y c, |leafTerm x bm| < 2 ^ 127 := by
  have hy : y < 2 ^ 32 := by
    by_contra hcc
    have : 2 ^ 32 * 2 ^ 32 ≤ y * y := Nat.mul_le_mul (by omega) (by omega)
    omega
  have hsq : Nat.sqrt y < 2 ^ 16 := by
    rw [Nat.sqrt_lt']
    omega
  refine sum_abs_leaf_fits (Finset.filter_subset _ _) hc hx (hard_le ?_ ?_)
  · calc y * Nat.sqrt y ≤ 2 ^ 32 * 2 ^ 16 := Nat.mul_le_mul hy.le hsq.le
      _ = _ := by norm_num
  · exact z_le hx hxy

theorem S2HardSum_fits {x y c : ℕ} (hx : x < 2 ^ 63) (hyx : y * y ≤ x) (hxy : x < (y + 1) ^ 3)
    (hc : 6 ≤ c ∨ π y ≤ c) : |S2HardSum x y c| < 2 ^ 127 :=
  (Finset.abs_sum_le_sum_abs _ _).trans_lt (sum_abs_hard_fits hx hyx hxy hc)

theorem abs_S2HardSum_lt {x y c : ℕ} (hx : x < 2 ^ 103) (hyx : y * y ≤ x) : |S2HardSum x y c| < 2 ^ 255 := by
  have hN : ∀ bm ∈ hardLeaves x y c, bm.2 * prm bm.1 ≤ x := by
    apply hard_le
    · refine le_trans (Nat.mul_le_mul_left _ (Nat.sqrt_le_self _)) hyx
    · exact Nat.div_le_self _ _
  have h1 := abs_leaf_sum_crude (x := x) (Finset.filter_subset _ _) hN
  change |S2HardSum x y c| * 2 ≤ _ at h1
  have h2 : Nat.log 2 x < 103 := by
    by_cases h0 : x = 0
    · rw [h0]; simp
    · exact Nat.log_lt_of_lt_pow h0 hx
  have h3 : x * (x * (Nat.log 2 x + 1) + x) ≤ 2 ^ 103 * (2 ^ 103 * 103 + 2 ^ 103) := by
    gcongr; omega
  have h4 : |S2HardSum x y c| * 2 ≤ ((2 ^ 103 * (2 ^ 103 * 103 + 2 ^ 103) : ℕ) : ℤ) := h1.trans (by exact_mod_cast h3)
  norm_num at h4 ⊢; omega

theorem S2HardSum_inRange {x y c : ℕ} (hx : x < 2 ^ 103) (hyx : y * y ≤ x) : I256.InRange (S2HardSum x y c) := by
  have h5 := abs_S2HardSum_lt (c := c) hx hyx
  rw [abs_lt] at h5
  constructor <;> omega

/-- `S2_hard`. -/
theorem s2Hard_ok {e : Env} {x y c : ℕ} {threads : ℤ} (hs : e.sched.Valid) (hm : e.merge.Valid)
    (hy : 1 ≤ y) (hyx : y * y ≤ x) (hxy : x < (y + 1) ^ 3) (hc : 6 ≤ c ∨ π y ≤ c) (hc10 : c < 10) (hx : x < 2 ^ 103)
    (hz : x / y + 129 < 2 ^ 59) :
    Ok (s2Hard e x y (x / y) c threads) (fun r => r.val = S2HardSum x y c) := by
  have hs1 : 1 ≤ Nat.sqrt y := Nat.sqrt_pos.2 hy
  have hc4 : 4 ≤ c ∨ π y ≤ c := hc.imp (by omega) id
  have hz' : 4 ≤ c ∨ x / y + 129 < 2 ^ 58 := by
    rcases Nat.lt_or_ge c 4 with h | h
    · have hy7 : y < 7 := by
        by_contra hcc
        have h1 : π 7 ≤ π y := pi_mono (by omega)
        have h2 : π 7 = 4 := by decide +kernel
        omega
      have h3 : (y + 1) ^ 3 ≤ 7 ^ 3 := Nat.pow_le_pow_left (by omega) 3
      have h4 := Nat.div_le_self x y
      omega
    · exact Or.inl h
  unfold s2Hard
  refine Ok.ite (fun h1 => ?_) (fun h1 => ?_)
  · refine Ok.bind (FactorTable.build_ok hm threads (by norm_num) h1 (by unfold FactorTable.max' at h1; norm_num at h1 ⊢; omega)) (fun factors hf => ?_)
    rw [cdiv_ok hs1]
    simp only [ok_bind]
    have hF : FT (cfg x y c) factors := FT.of_table (Or.inl rfl) hf h1 hy
    have hP : PrimePrefix (truncVec 32 (generatePrimes (x / y / Nat.sqrt y))) (π (min y (x / y / Nat.sqrt y))) := by
      refine truncVec_prefix (pi_mono (min_le_right _ _)) ?_
      unfold FactorTable.max' at h1
      refine lt_of_le_of_lt (prm_pi_le _) (max_lt (lt_of_le_of_lt (min_le_left _ _) ?_) (by norm_num))
      norm_num at h1 ⊢
      omega
    refine Ok.ite (fun h2 => ?_) (fun h2 => ?_)
    · refine Ok.bind (master_ok (R := W128) hP hs hy hyx hc4 hc10 hx hz hz' hF) (fun r hr => Ok.pure (rep_val r _ hr (show _ ∧ _ from ?_)))
      have := S2HardSum_fits (by omega) hyx hxy hc
      rw [abs_lt] at this
      constructor <;> omega
    · refine Ok.bind (master_ok (R := I256) hP hs hy hyx hc4 hc10 hx hz hz' hF) (fun r hr => Ok.pure (rep_val r _ hr ?_))
      exact S2HardSum_inRange hx hyx
  · have hymax : y ≤ FactorTable.max' (2 ^ 32 - 1) := by
      unfold FactorTable.max'
      have := y_le_z hy hyx
      have h2 : (2:ℕ) ^ 59 ≤ (2 ^ 32 - 1 - 1) ^ 2 - 1 := by norm_num
      omega
    refine Ok.bind (FactorTable.build_ok hm threads (by norm_num) hymax (by have := y_le_z hy hyx; omega)) (fun factors hf => ?_)
    rw [cdiv_ok hs1]
    simp only [ok_bind]
    have hF : FT (cfg x y c) factors := FT.of_table (Or.inr rfl) hf hymax hy
    rw [generatePrimesT_eq (lt_of_le_of_lt (Nat.div_le_self _ _) (by omega)), ok_bind]
    have hP : PrimePrefix (generatePrimes (x / y / Nat.sqrt y)) (π (min y (x / y / Nat.sqrt y))) :=
      (generatePrimes_table _).pre.anti (pi_mono (min_le_right _ _))
    refine Ok.bind (master_ok (R := I256) hP hs hy hyx hc4 hc10 hx hz hz' hF) (fun r hr => Ok.pure (rep_val r _ hr ?_))
    exact S2HardSum_inRange hx hyx

theorem y_ge {x y : ℕ} (hxy : x < (y + 1) ^ 3) (hz : 2 ^ 58 ≤ x / y) : 1024 ≤ y := by
  by_contra hcc
  have h1 : (y + 1) ^ 3 ≤ (2 ^ 10) ^ 3 := Nat.pow_le_pow_left (by omega) 3
  have h2 := Nat.div_le_self x y
  norm_num at h1 hz
  omega

/-- `S2_hard` further than its sieve reaches. -/
theorem s2Hard_mod {e : Env} {x y c : ℕ} {threads : ℤ} (hs : e.sched.Valid) (hm : e.merge.Valid)
    (hy : 1 ≤ y) (hyx : y * y ≤ x) (hxy : x < (y + 1) ^ 3) (hc : 6 ≤ c ∨ π y ≤ c) (hc10 : c < 10) (hx : x < 2 ^ 103)
    (hz : x / y + 129 < 2 ^ 61 + 2 ^ 58) (hthr : threads ≤ 2 ^ 26) :
    Ok (s2Hard e x y (x / y) c threads) (fun r => (2 ^ 64 : ℤ) ∣ r.val - S2HardSum x y c) := by
  rcases Nat.lt_or_ge (x / y + 129) (2 ^ 59) with hz1 | hz1
  · refine (s2Hard_ok hs hm hy hyx hxy hc hc10 hx hz1).mono (fun r hr => ?_)
    rw [hr, sub_self]; exact dvd_zero _
  have hs1 : 1 ≤ Nat.sqrt y := Nat.sqrt_pos.2 hy
  have hc4 : 4 ≤ c ∨ π y ≤ c := hc.imp (by omega) id
  have hR : InReach (BRes.low 64 (by norm_num)).mod x y c threads := Or.inr ⟨dvd_rfl, hz, y_ge hxy (by omega), hthr⟩
  have hy52 : y < 2 ^ 52 := by
    by_contra hcc
    have : 2 ^ 52 * 2 ^ 52 ≤ y * y := Nat.mul_le_mul (by omega) (by omega)
    omega
  unfold s2Hard
  refine Ok.ite (fun h1 => ?_) (fun h1 => ?_)
  · refine Ok.bind (FactorTable.build_ok hm threads (by norm_num) h1 (by omega)) (fun factors hf => ?_)
    rw [cdiv_ok hs1]
    simp only [ok_bind]
    have hF : FT (cfg x y c) factors := FT.of_table (Or.inl rfl) hf h1 hy
    have hP : PrimePrefix (truncVec 32 (generatePrimes (x / y / Nat.sqrt y))) (π (min y (x / y / Nat.sqrt y))) := by
      refine truncVec_prefix (pi_mono (min_le_right _ _)) ?_
      unfold FactorTable.max' at h1
      refine lt_of_le_of_lt (prm_pi_le _) (max_lt (lt_of_le_of_lt (min_le_left _ _) ?_) (by norm_num))
      norm_num at h1 ⊢
      omega
    refine Ok.ite (fun h2 => ?_) (fun h2 => ?_)
    · have := z_le (x := x) (by omega) hxy
      omega
    · exact Ok.bind (master_rep (BRes.low 64 (by norm_num)) hP hs hy hyx hc4 hc10 hx hR hF) (fun r hr => Ok.pure hr)
  · have hymax : y ≤ FactorTable.max' (2 ^ 32 - 1) := by
      unfold FactorTable.max'
      have h2 : (2:ℕ) ^ 59 ≤ (2 ^ 32 - 1 - 1) ^ 2 - 1 := by norm_num
      omega
    refine Ok.bind (FactorTable.build_ok hm threads (by norm_num) hymax (by omega)) (fun factors hf => ?_)
    rw [cdiv_ok hs1]
    simp only [ok_bind]
    have hF : FT (cfg x y c) factors := FT.of_table (Or.inr rfl) hf hymax hy
    rw [generatePrimesT_eq (lt_of_le_of_lt (Nat.div_le_self _ _) (by omega)), ok_bind]
    have hP : PrimePrefix (generatePrimes (x / y / Nat.sqrt y)) (π (min y (x / y / Nat.sqrt y))) :=
      (generatePrimes_table _).pre.anti (pi_mono (min_le_right _ _))
    exact Ok.bind (master_rep (BRes.low 64 (by norm_num)) hP hs hy hyx hc4 hc10 hx hR hF) (fun r hr => Ok.pure hr)

end S2Hard
end PS
