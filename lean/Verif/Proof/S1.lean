import Verif.Model.S1
import Verif.Proof.BRes
import Verif.Proof.Omp

namespace PS
open Finset Res LawfulRes
open scoped Classical
local notation "π" => Nat.primeCounting

/-- Sum over the multiples `m s ≤ y` of `s` with `m` coprime to the first `b` primes. -/
noncomputable def E1 (x y c b s : ℕ) : ℤ :=
  ∑ m ∈ (Icc 1 (y / s)).filter (Rough b), mu m * ((m * s : ℕ) : ℤ) * phiSum (x / (m * s)) c

theorem E1_one (x y c : ℕ) : S1Sum x y c = E1 x y c c 1 := by
  unfold S1Sum E1
  simp

theorem mu_mul_prm {m b : ℕ} : mu (m * prm (b + 1)) = if prm (b + 1) ∣ m then 0 else - mu m := by
  have hpp := prm_prime (b + 1)
  split
  · rename_i h6
    apply ArithmeticFunction.moebius_eq_zero_of_not_squarefree
    intro hs
    have := hs (prm (b + 1)) (Nat.mul_dvd_mul_right h6 _)
    exact hpp.one_lt.ne' (Nat.isUnit_iff.1 this)
  · rename_i h
    have hco : Nat.Coprime m (prm (b + 1)) := ((hpp.coprime_iff_not_dvd).2 h).symm
    unfold mu
    rw [ArithmeticFunction.isMultiplicative_moebius.map_mul_of_coprime hco,
      ArithmeticFunction.moebius_apply_prime hpp]
    ring

theorem E1_succ (x y c b s : ℕ) :
    E1 x y c b s = E1 x y c (b + 1) s - E1 x y c (b + 1) (s * prm (b + 1)) := by
  unfold E1
  rw [sum_rough_split, sub_eq_add_neg, ← Finset.sum_neg_distrib, Nat.div_div_eq_div_mul]
  congr 1
  symm
  apply Finset.sum_subset_zero_on_sdiff
  · intro m; simp only [mem_filter]; exact fun h => ⟨h.1, h.2.anti (by omega)⟩
  · intro m hm
    simp only [mem_sdiff, mem_filter] at hm
    obtain ⟨⟨h1, h2⟩, h3⟩ := hm
    rw [mu_mul_prm, if_pos]
    · ring
    · by_contra hc
      exact h3 ⟨h1, rough_succ.2 ⟨h2, hc⟩⟩
  · intro m hm
    simp only [mem_filter] at hm
    rw [mu_mul_prm, if_neg (rough_succ.1 hm.2).2, show m * prm (b + 1) * s = m * (s * prm (b + 1)) by ring]
    ring

/-- The sum of the absolute values of the terms of `E1`. -/
noncomputable def A1 (x y c b s : ℕ) : ℤ :=
  ∑ m ∈ (Icc 1 (y / s)).filter (Rough b), |mu m| * ((m * s : ℕ) : ℤ) * phiSum (x / (m * s)) c

theorem A1_succ (x y c b s : ℕ) :
    A1 x y c b s = A1 x y c (b + 1) s + A1 x y c (b + 1) (s * prm (b + 1)) := by
  unfold A1
  rw [sum_rough_split, Nat.div_div_eq_div_mul]
  congr 1
  symm
  apply Finset.sum_subset_zero_on_sdiff
  · intro m; simp only [mem_filter]; exact fun h => ⟨h.1, h.2.anti (by omega)⟩
  · intro m hm
    simp only [mem_sdiff, mem_filter] at hm
    obtain ⟨⟨h1, h2⟩, h3⟩ := hm
    rw [mu_mul_prm, if_pos]
    · simp
    · by_contra hc
      exact h3 ⟨h1, rough_succ.2 ⟨h2, hc⟩⟩
  · intro m hm
    simp only [mem_filter] at hm
    rw [mu_mul_prm, if_neg (rough_succ.1 hm.2).2, show m * prm (b + 1) * s = m * (s * prm (b + 1)) by ring, abs_neg]

theorem A1_small {x y c b s : ℕ} (hs : 1 ≤ s) (hsy : s ≤ y) (h : y < s * prm (b + 1)) :
    A1 x y c b s = (s : ℤ) * phiSum (x / s) c := by
  unfold A1
  rw [filter_rough_small (Nat.div_pos hsy hs) (Nat.div_lt_of_lt_mul h)]
  simp

theorem E1_small {x y c b s : ℕ} (hs : 1 ≤ s) (hsy : s ≤ y) (h : y < s * prm (b + 1)) :
    E1 x y c b s = (s : ℤ) * phiSum (x / s) c := by
  unfold E1
  rw [filter_rough_small (Nat.div_pos hsy hs) (Nat.div_lt_of_lt_mul h)]
  simp

theorem E1_total (x y c : ℕ) (hy : 1 ≤ y) : E1 x y c c 1 =
    phiSum x c - ∑ b ∈ Ico (c + 1) (π y + 1), E1 x y c b (prm b) := by
  by_cases hc : c ≤ π y
  · have key : ∀ d, d ≤ π y → c ≤ d → E1 x y c c 1 = E1 x y c d 1 -
        ∑ b ∈ Ico (c + 1) (d + 1), E1 x y c b (prm b) := by
      intro d hd hcd
      induction d, hcd using Nat.le_induction with
      | base => simp
      | succ k hk ih =>
        rw [ih (by omega), E1_succ x y c k 1, Finset.sum_Ico_succ_top (show c + 1 ≤ k + 1 by omega), one_mul]
        ring
    rw [key (π y) le_rfl hc, E1_small le_rfl hy (by
      rw [one_mul]; exact (lt_prm_iff_pi_lt (by omega)).2 (by omega))]
    simp
  · rw [Finset.Ico_eq_empty (by omega), E1_small le_rfl hy (by
      rw [one_mul]; exact (lt_prm_iff_pi_lt (by omega)).2 (by omega))]
    simp

theorem A1_total (x y c : ℕ) (hy : 1 ≤ y) : A1 x y c c 1 =
    phiSum x c + ∑ b ∈ Ico (c + 1) (π y + 1), A1 x y c b (prm b) := by
  by_cases hc : c ≤ π y
  · have key : ∀ d, d ≤ π y → c ≤ d → A1 x y c c 1 = A1 x y c d 1 +
        ∑ b ∈ Ico (c + 1) (d + 1), A1 x y c b (prm b) := by
      intro d hd hcd
      induction d, hcd using Nat.le_induction with
      | base => simp
      | succ k hk ih =>
        rw [ih (by omega), A1_succ x y c k 1, Finset.sum_Ico_succ_top (show c + 1 ≤ k + 1 by omega), one_mul]
        ring
    rw [key (π y) le_rfl hc, A1_small le_rfl hy (by
      rw [one_mul]; exact (lt_prm_iff_pi_lt (by omega)).2 (by omega))]
    simp
  · rw [Finset.Ico_eq_empty (by omega), A1_small le_rfl hy (by
      rw [one_mul]; exact (lt_prm_iff_pi_lt (by omega)).2 (by omega))]
    simp

variable {R : Type} [Res R] (S : BRes R)

theorem rep_phi_mul {x c : ℕ} (hx : ∀ n, 2 ≤ n → Rough c n → S.PhiOk (x / n) c) {y : ℕ} (hy : y ≤ 2 ^ 126) {n : ℕ} (hn : n ≤ y) (h1 : 2 ≤ n)
    (hr : Rough c n)
    {mu : ℤ} (hmu : mu = 1 ∨ mu = -1) :
    Ok (phiSumR (R := R) (x / n) c)
      (fun ph => S.Rep (mul ph (ofInt (mu * n))) (phiSum (x / n) c * (mu * n)) (phiSum (x / n) c * n)) := by
  have hx' := hx n h1 hr
  refine (S.rep_phi _ _ hx').mono (fun ph hph => ?_)
  have hlt := S.phiOk_lt _ _ hx'
  have h2 := phiSum_le (x / n) c
  have h3 : x / n * (x / n + 1) ≤ 2 ^ 127 * 2 ^ 127 := Nat.mul_le_mul (by omega) (by omega)
  have hb1 : -2 ^ 127 ≤ mu * (n : ℤ) := by rcases hmu with e | e <;> subst e <;> omega
  have hb2 : mu * (n : ℤ) < 2 ^ 127 := by rcases hmu with e | e <;> subst e <;> omega
  have ha : |mu * (n : ℤ)| = n := by
    rcases hmu with e | e <;> subst e <;> simp
  have := S.rep_ofInt _ hb1 hb2
  rw [ha] at this
  exact S.rep_mul _ _ _ _ _ _ hph this (by omega) (by omega) hb1 (by omega) (S.phiOk_lim _ _ hx')
    (S.lim_small _ (by omega))

theorem s1Loop_ok {xb x y c : ℕ} (hx : ∀ n, 2 ≤ n → Rough c n → S.PhiOk (x / n) c) (hy : y ≤ 2 ^ 126) (hyy : y * y < 2 ^ xb) {primes : Vec ℕ}
    (ht : PrimeTable primes (π y)) (n : ℕ) : ∀ (mu : ℤ) (b s : ℕ) (acc : R) (z a : ℤ),
    primes.size - (b + 1) = n → c ≤ b → Rough c s → 1 ≤ s → s ≤ y → (mu = 1 ∨ mu = -1) → S.Rep acc z a →
    Ok (s1Loop xb x y c primes mu (b + 1) s acc)
      (fun r => S.Rep r (z - mu * (E1 x y c b s - s * phiSum (x / s) c))
        (a + (A1 x y c b s - s * phiSum (x / s) c))) := by
  induction n using Nat.strongRecOn with
  | _ n ih =>
    intro mu b s acc z a hn hcb hrs hs hsy hmu hacc
    unfold s1Loop
    refine Ok.ite (fun hb => ?_) (fun hb => Ok.pure ?_)
    · have hbπ : b + 1 ≤ π y := by rw [ht.1] at hb; omega
      rw [ht.rd (by omega) hbπ]
      simp only [ok_bind]
      have hp := prm_pos (b + 1)
      have hpy : prm (b + 1) ≤ y := (prm_le_iff_le_pi (by omega)).2 hbπ
      rw [fit_ok (lt_of_le_of_lt (Nat.mul_le_mul hsy hpy) hyy), ok_bind]
      refine Ok.ite (fun h => Ok.pure ?_) (fun h => ?_)
      · rw [E1_small hs hsy h, A1_small hs hsy h]; simpa using hacc
      push Not at h
      have hn1 : 1 ≤ s * prm (b + 1) := Nat.mul_pos hs hp
      rw [cdiv_ok hn1]
      simp only [ok_bind]
      have hn2 : 2 ≤ s * prm (b + 1) := le_trans (two_le_prm (b + 1)) (Nat.le_mul_of_pos_left _ hs)
      refine Ok.bind (rep_phi_mul S hx hy h hn2 (rough_mul.2 ⟨hrs, (rough_prm (by omega)).2 (by omega)⟩) hmu) (fun ph hph => ?_)
      refine Ok.bind (ih _ (by omega) (-mu) (b + 1) (s * prm (b + 1)) (ofInt 0) 0 0 rfl (by omega) (rough_mul.2 ⟨hrs, (rough_prm (by omega)).2 (by omega)⟩) hn1 h
        (by omega) S.rep_zero) (fun r hr => ?_)
      refine (ih _ (by omega) mu (b + 1) s _ _ _ rfl (by omega) hrs hs hsy hmu
        (S.rep_add _ _ _ _ _ _ (S.rep_add _ _ _ _ _ _ hacc hph) hr)).mono (fun q hq => ?_)
      rw [E1_succ x y c b s, A1_succ x y c b s]
      convert hq using 1 <;> ring
    · have h : y < s * prm (b + 1) := by
        rw [ht.1] at hb
        have h1 : y < prm (b + 1) := (lt_prm_iff_pi_lt (by omega)).2 (by omega)
        nlinarith
      rw [E1_small hs hsy h, A1_small hs hsy h]
      simpa using hacc

/-- If `phi_sum(x, c)` is off by `E` and `phi_sum(x / n, c)` is right for `n ≥ 2`, the result is off by `E`. -/
theorem s1Master_rep {xb yb x y c : ℕ} {E a : ℤ} (h1 : Ok (phiSumR (R := R) x c) (fun r => S.Rep r (phiSum x c + E) a))
    (hx : ∀ n, 2 ≤ n → Rough c n → S.PhiOk (x / n) c) (hy : y ≤ 2 ^ 126) (hyb : y < 2 ^ yb) (hyy : y * y < 2 ^ xb) (hy1 : 1 ≤ y) {sched : Scheduler}
    (hs : sched.Valid) : Ok (s1Master R sched xb yb x y c)
      (fun r => S.Rep r (S1Sum x y c + E) (A1 x y c c 1 - phiSum x c + a)) := by
  unfold s1Master
  have ht := generatePrimes_table y
  rw [generatePrimesT_eq hyb, ok_bind]
  refine Ok.bind h1 (fun s1 hs1 => ?_)
  rw [ht.1]
  refine (ompFor_ok (fun r (za : ℤ × ℤ) => S.Rep r za.1 za.2) (fun _ => True)
    (fun b => (-E1 x y c b (prm b), A1 x y c b (prm b))) (z0 := (phiSum x c + E, a))
    (fun r r' p q h1 h2 => S.rep_add r r' _ _ _ _ h1 h2) S.rep_zero hs1 trivial
    (hs 1 (c + 1) (π y + 1)) ?_).mono (fun r hr => ?_)
  · intro b s r z h1 h2 _ hr
    rw [ht.rd (by omega) (by omega)]
    simp only [ok_bind]
    have hp := prm_pos b
    have hpy : prm b ≤ y := (prm_le_iff_le_pi (by omega)).2 (by omega)
    rw [cdiv_ok hp]
    simp only [ok_bind]
    have hm := rep_phi_mul S hx hy hpy (two_le_prm b) ((rough_prm (by omega)).2 (by omega)) (mu := 1) (Or.inl rfl)
    rw [one_mul] at hm
    refine Ok.bind hm (fun ph hph => ?_)
    refine Ok.bind (s1Loop_ok S hx hy hyy ht _ 1 b (prm b) (ofInt 0) 0 0 rfl (by omega) ((rough_prm (by omega)).2 (by omega)) hp hpy (Or.inl rfl) S.rep_zero)
      (fun q hq => Ok.pure ⟨trivial, ?_⟩)
    have := S.rep_add _ _ _ _ _ _ (S.rep_sub _ _ _ _ _ _ hr hph) hq
    convert this using 1 <;> dsimp only [Prod.fst_add, Prod.snd_add] <;> ring
  · rw [E1_one x y c, E1_total x y c hy1, A1_total x y c hy1]
    dsimp only [Prod.fst_add, Prod.snd_add] at hr
    rw [Prod.fst_sum, Prod.snd_sum] at hr
    dsimp only at hr
    rw [Finset.sum_neg_distrib] at hr
    convert hr using 1 <;> ring

theorem s1Master_off [LawfulRes R] {xb yb x y c : ℕ} {E : ℤ} (h1 : Ok (phiSumR (R := R) x c) (fun r => Rep r (phiSum x c + E)))
    (hx : ∀ n, 2 ≤ n → Rough c n → PhiOk R (x / n) c) (hy : y ≤ 2 ^ 126) (hyb : y < 2 ^ yb) (hyy : y * y < 2 ^ xb) (hy1 : 1 ≤ y) {sched : Scheduler}
    (hs : sched.Valid) : Ok (s1Master R sched xb yb x y c) (fun r => Rep r (S1Sum x y c + E)) :=
  s1Master_rep (BRes.lawful R) (a := 0) h1 hx hy hyb hyy hy1 hs

theorem s1Master_ok [LawfulRes R] {xb yb x y c : ℕ} (hx : PhiOk R x c) (hy : y ≤ 2 ^ 126) (hyb : y < 2 ^ yb) (hyy : y * y < 2 ^ xb) (hy1 : 1 ≤ y) {sched : Scheduler}
    (hs : sched.Valid) : Ok (s1Master R sched xb yb x y c) (fun r => Rep r (S1Sum x y c)) := by
  have h := s1Master_off (E := 0) (by simpa using rep_phi (R := R) _ _ hx)
    (fun n hn hr => phiOk_div x c n (by omega) hr hx) hy hyb hyy hy1 hs
  simpa using h

end PS
