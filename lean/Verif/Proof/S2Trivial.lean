import Verif.Model.S2Trivial
import Verif.Spec.Leaves
import Verif.Proof.P2
import Verif.Proof.Leaves
import Verif.Proof.Tables
import Verif.Proof.Omp
import Verif.Proof.Res
import Verif.Proof.Misc
import Verif.Proof.Width

namespace PS
open Finset Res LawfulRes
open scoped Classical
local notation "π" => Nat.primeCounting

theorem nthPrime_ok {c : ℕ} (h1 : 1 ≤ c) (h2 : c ≤ 9) : nthPrime c = .ok (prm c) := by
  unfold nthPrime
  interval_cases c
  · rw [prm_one]; rfl
  · rw [prm_2]; rfl
  · rw [prm_3]; rfl
  · rw [prm_4]; rfl
  · rw [prm_5]; rfl
  · rw [prm_6]; rfl
  · rw [prm_7]; rfl
  · rw [prm_8]; rfl
  · rw [prm_9]; rfl

theorem nthPrime_max {c : ℕ} (h2 : c ≤ 9) : nthPrime c = .ok (prm (max c 1)) := by
  rcases Nat.eq_zero_or_pos c with rfl | h
  · exact nthPrime_ok (c := 1) le_rfl (by norm_num)
  · rw [Nat.max_eq_left h]; exact nthPrime_ok h h2

theorem nthPrime_throws {c : ℕ} (h : 10 ≤ c) :
    nthPrime c = .error (.thrown "nth_prime(n): n must be < 10") := by
  unfold nthPrime; rw [if_pos h]

namespace S2Trivial

/-- Contribution of `p`. -/
noncomputable def g (x y p : ℕ) : ℤ := ((primeSum y : ℤ) - primeSum (max (x / (p * p)) p)) * p

/-- Sum over the primes in `[a, b)`. -/
noncomputable def gs (x y a b : ℕ) : ℤ := ∑ p ∈ (Ico a b).filter Nat.Prime, g x y p

theorem gs_add (x y : ℕ) {a b c : ℕ} (h1 : a ≤ b) (h2 : b ≤ c) : gs x y a b + gs x y b c = gs x y a c := by
  unfold gs
  simp only [Finset.sum_filter]
  exact Finset.sum_Ico_consecutive _ h1 h2

theorem gs_succ (x y : ℕ) {a b : ℕ} (h : a ≤ b) :
    gs x y a (b + 1) = gs x y a b + if b.Prime then g x y b else 0 := by
  unfold gs
  simp only [Finset.sum_filter]
  exact Finset.sum_Ico_succ_top h _

variable {R : Type} [Res R] [LawfulRes R] {x y : ℕ} {pi : PiTable} {sums : Vec ℕ}

theorem xn_le (hy : 1 ≤ y) {p : ℕ} (hpy : p ≤ y) (hz : x / y < p * p) : max (x / (p * p)) p ≤ y := by
  refine max_le ?_ hpy
  rw [Nat.div_lt_iff_lt_mul hy] at hz
  have h0 : 0 < p * p := by
    rcases Nat.eq_zero_or_pos (p * p) with h | h
    · rw [h] at hz; omega
    · exact h
  have : x / (p * p) < y + 1 := by
    rw [Nat.div_lt_iff_lt_mul h0, Nat.add_mul, Nat.mul_comm y]; omega
  omega

theorem rep_term {acc : R} {z d p : ℤ} (ha : Rep acc z) (hd0 : 0 ≤ d)
    (hd : d < 2 ^ 127) (hp0 : 0 ≤ p) (hp : p < 2 ^ 127) :
    Rep (add acc (mul (ofInt d) (ofInt p))) (z + d * p) :=
  rep_add _ _ _ _ ha (rep_mul _ _ _ _ (rep_ofInt d (by omega) hd) (rep_ofInt p (by omega) hp)
    (by omega) (by omega) (by omega) (by omega))

theorem leaf_ok (hy : 1 ≤ y) (hy63 : y < 2 ^ 63) (hpi : pi.Valid) (hmax : pi.max = y) (hs : SumTable sums y)
    {p : ℕ} (hpy : p ≤ y) (hz : x / y < p * p) {acc : R} {z : ℤ} (ha : Rep acc z) :
    Ok (leaf x y pi sums p acc) (fun r => Rep r (z + g x y p)) := by
  unfold leaf
  have h0 : 0 < p * p := (Nat.zero_le _).trans_lt hz
  have hxn := xn_le hy hpy hz
  have hpp : p * p < 2 ^ 127 := (Nat.mul_le_mul hpy hpy).trans_lt
    ((Nat.mul_le_mul hy63.le hy63.le).trans_lt (by norm_num))
  rw [fit_ok hpp]
  simp only [ok_bind]
  rw [cdiv_ok h0]
  simp only [ok_bind]
  rw [fit_ok (hxn.trans_lt hy63)]
  simp only [ok_bind]
  rw [PiTable.at_ok hpi (by omega), PiTable.at_ok hpi (by omega)]
  simp only [ok_bind]
  rw [hs.rd_pi le_rfl, hs.rd_pi hxn]
  simp only [ok_bind]
  have hm := primeSum_mono hxn
  rw [csub_ok hm]
  have hle := primeSum_le y
  have : y * (y + 1) ≤ 2 ^ 63 * 2 ^ 63 := Nat.mul_le_mul (by omega) (by omega)
  refine Ok.pure ?_
  unfold g
  rw [← Nat.cast_sub hm]
  exact rep_term ha (by omega) (by omega) (by omega) (by omega)

theorem forPrimes_leaf_ok (hy : 1 ≤ y) (hy63 : y < 2 ^ 63) (hpi : pi.Valid) (hmax : pi.max = y)
    (hs : SumTable sums y) {a b : ℕ} (hab : a ≤ b) (hb : b < y) (hz : x / y < (a + 1) * (a + 1))
    {acc : R} {z : ℤ} (ha : Rep acc z) :
    Ok (forPrimes a b acc (leaf x y pi sums)) (fun r => Rep r (z + gs x y (a + 1) (b + 1))) := by
  refine forPrimes_ok (fun k r => Rep r (z + gs x y (a + 1) (k + 1))) ?_ hab ?_ ?_
  · simpa [gs] using ha
  · intro k s h1 h2 hnp h
    rw [gs_succ x y (by omega), if_neg hnp, add_zero]
    exact h
  · intro p s hp h1 h2 h
    have e : p - 1 + 1 = p := by omega
    rw [e] at h
    rw [gs_succ x y (by omega), if_pos hp, ← add_assoc]
    refine leaf_ok hy hy63 hpi hmax hs (by omega) ?_ h
    exact hz.trans_le (Nat.mul_le_mul (by omega) (by omega))

theorem iv_fits {I i s : ℕ} (hs : s ≤ 2 ^ 62) (hb : s + I * i + I < 2 ^ 63) :
    fitI 63 ((I : ℤ) * (i : ℕ)) = .ok ((I : ℤ) * (i : ℕ)) ∧
    fitI 63 ((s : ℤ) + (I : ℤ) * (i : ℕ)) = .ok ((s : ℤ) + (I : ℤ) * (i : ℕ)) ∧
    fitI 63 ((s : ℤ) + (I : ℤ) * (i : ℕ) + (I : ℕ)) = .ok ((s : ℤ) + (I : ℤ) * (i : ℕ) + (I : ℕ)) := by
  have e0 : (I : ℤ) * (i : ℕ) = ((I * i : ℕ) : ℤ) := by push_cast; ring
  rw [e0]
  generalize I * i = P at *
  exact ⟨fitI_ok (by omega) (by omega), fitI_ok (by omega) (by omega), fitI_ok (by omega) (by omega)⟩

theorem thread_ok {sqrtz primec : ℕ} {t : ℕ} (ht : 1 ≤ t) (ht2 : t ≤ 2 ^ 61) (hq : max primec sqrtz < 2 ^ 62)
    (hy : 1 ≤ y) (hy63 : y < 2 ^ 62) (hpi : pi.Valid)
    (hmax : pi.max = y) (hs : SumTable sums y) (hz : x / y < (sqrtz + 1) * (sqrtz + 1)) {i : ℕ} (hi : i < t)
    {acc : R} {z : ℤ} (ha : Rep acc z) :
    let start := max primec sqrtz + 1
    let e := fun i => min (start + (y - start + t - 1) / t * i) y
    Ok (thread x y sqrtz primec t pi sums i acc) (fun r => Rep r
      (z + if start ≤ y then gs x y (e i) (e (i + 1)) else 0)) := by
  intro start e
  unfold thread
  have hc : ((max primec sqrtz : ℕ) : ℤ) + 1 = (start : ℕ) := by simp only [start]; push_cast; rfl
  rw [hc]
  have hst : start ≤ 2 ^ 62 := by simp only [start]; omega
  have hsz : x / y < start * start := hz.trans_le (Nat.mul_le_mul (by omega) (by omega))
  have hs1 : 1 ≤ start := by omega
  clear_value start
  rw [fitI_ok (by omega) (by omega)]
  simp only [ok_bind]
  unfold ceilDivI
  rw [fitI_ok (by omega) (by omega)]
  simp only [ok_bind]
  have ht0 : ¬ ((t : ℕ) : ℤ) = 0 := by omega
  rw [if_neg ht0]
  simp only [pure_eq_ok, ok_bind]
  by_cases hle : start ≤ y
  · rw [if_pos hle]
    have e1 : ((y : ℤ) - (start : ℕ) + (t : ℕ) - 1) = ((y - start + t - 1 : ℕ) : ℤ) := by omega
    rw [e1, Int.tdiv_eq_ediv_of_nonneg (by omega), ← Int.natCast_div]
    obtain ⟨I, hI⟩ : ∃ I, (y - start + t - 1) / t = I := ⟨_, rfl⟩
    simp only [e, hI]
    have hIt : I * t ≤ y - start + t - 1 := by rw [← hI]; exact Nat.div_mul_le_self _ _
    have hIi : I * i + I ≤ I * t := by
      rw [← Nat.mul_succ]; exact Nat.mul_le_mul_left _ hi
    obtain ⟨b1, b2, b3⟩ := iv_fits (I := I) (i := i) hst (by omega)
    rw [b1, ok_bind, b2, ok_bind, b3, ok_bind]
    have e2 : (start : ℤ) + (I : ℤ) * (i : ℕ) = ((start + I * i : ℕ) : ℤ) := by push_cast; ring
    rw [e2, Nat.mul_add, Nat.mul_one, ← Nat.add_assoc]
    have hge : start ≤ start + I * i := by omega
    generalize start + I * i = s at *
    rw [if_neg (by omega)]
    have e3 : ((s : ℤ) - 1).toNat = s - 1 := by omega
    have e4 : (min ((s : ℤ) + (I : ℕ)) (y : ℕ) - 1).toNat = min (s + I) y - 1 := by omega
    rw [e3, e4]
    by_cases hsy : s < min (s + I) y
    · rw [Nat.min_eq_left (show s ≤ y by omega)]
      have := forPrimes_leaf_ok (x := x) hy (hy63.trans (by norm_num)) hpi hmax hs (a := s - 1) (b := min (s + I) y - 1) (by omega)
        (by omega) (hsz.trans_le (Nat.mul_le_mul (by omega) (by omega))) ha
      rw [show s - 1 + 1 = s by omega, show min (s + I) y - 1 + 1 = min (s + I) y by omega] at this
      exact this
    · have h1 : min s y = min (s + I) y := by omega
      rw [h1]
      rw [forPrimes_none]
      · refine Ok.ok ?_
        simpa [gs] using ha
      · have := lt_nextPrime (s - 1)
        omega
  · rw [if_neg hle, add_zero]
    have hI : ((y : ℤ) - (start : ℕ) + (t : ℕ) - 1).tdiv (t : ℕ) ≤ 0 := by
      have h1 : ((y : ℤ) - (start : ℕ) + (t : ℕ) - 1) ≤ (t : ℕ) - 1 := by omega
      rcases lt_or_ge ((y : ℤ) - (start : ℕ) + (t : ℕ) - 1) 0 with h | h
      · rw [← neg_neg ((y : ℤ) - (start : ℕ) + (t : ℕ) - 1), Int.neg_tdiv]
        have := Int.tdiv_nonneg (a := -((y : ℤ) - (start : ℕ) + (t : ℕ) - 1)) (b := (t : ℕ)) (by omega) (by omega)
        omega
      · rw [Int.tdiv_eq_ediv_of_nonneg h]
        have := Int.ediv_lt_of_lt_mul (a := ((y : ℤ) - (start : ℕ) + (t : ℕ) - 1)) (b := 1) (c := (t : ℕ)) (by omega) (by omega)
        omega
    have hI4 : (-2 ^ 62 : ℤ) ≤ ((y : ℤ) - (start : ℕ) + (t : ℕ) - 1).tdiv (t : ℕ) := by
      have := Int.natAbs_tdiv_le_natAbs ((y : ℤ) - (start : ℕ) + (t : ℕ) - 1) (t : ℕ)
      omega
    have hI2 : (y : ℤ) ≤ (start : ℕ) + ((y : ℤ) - (start : ℕ) + (t : ℕ) - 1).tdiv (t : ℕ) * (i : ℕ) := by
      have h2 : ((y : ℤ) - (start : ℕ)) ≤ ((y : ℤ) - (start : ℕ) + (t : ℕ) - 1).tdiv (t : ℕ) * (t : ℕ) := by
        have := Int.tdiv_mul_add_tmod ((y : ℤ) - (start : ℕ) + (t : ℕ) - 1) (t : ℕ)
        have h3 := Int.tmod_lt_of_pos ((y : ℤ) - (start : ℕ) + (t : ℕ) - 1) (b := (t : ℕ)) (by omega)
        omega
      generalize ((y : ℤ) - (start : ℕ) + (t : ℕ) - 1).tdiv (t : ℕ) = I at *
      nlinarith
    generalize ((y : ℤ) - (start : ℕ) + (t : ℕ) - 1).tdiv (t : ℕ) = I at *
    have hI3 : I * (i : ℕ) ≤ 0 := mul_nonpos_of_nonpos_of_nonneg hI (by omega)
    rw [fitI_ok (by omega) (by omega)]
    simp only [ok_bind]
    rw [fitI_ok (by omega) (by omega)]
    simp only [ok_bind]
    rw [fitI_ok (by omega) (by omega)]
    simp only [ok_bind]
    generalize (start : ℤ) + I * (i : ℕ) = s at *
    rw [if_neg (by omega), forPrimes_none]
    · exact Ok.ok ha
    · have := lt_nextPrime (s - 1).toNat
      omega

theorem S2TrivialSum_eq {x y c : ℕ} (hy : 1 ≤ y) (hc : 1 ≤ c) :
    (S2TrivialSum x y c : ℤ) = if max (prm c) (Nat.sqrt (x / y)) + 1 ≤ y then
      gs x y (max (prm c) (Nat.sqrt (x / y)) + 1) y else 0 := by
  have e1 : (S2TrivialSum x y c : ℤ) = gs x y (max (prm c) (Nat.sqrt (x / y)) + 1) y := by
    unfold S2TrivialSum trivialPairs
    rw [Finset.sum_filter, Finset.sum_product]
    push_cast
    have key : ∀ p ∈ Icc 1 y, (∑ q ∈ Icc 1 y, if p.Prime ∧ q.Prime ∧ p < q ∧ c < π p ∧ x / y < p * p ∧
        x < p * p * q then (p : ℤ) * q else 0) =
        if p ∈ (Ico (max (prm c) (Nat.sqrt (x / y)) + 1) y).filter Nat.Prime then g x y p else 0 := by
      intro p hp
      rw [Finset.mem_Icc] at hp
      by_cases hpp : p.Prime
      · have e2 : c < π p ↔ prm c < p := by
          rw [← prm_lt_iff hc (pi_pos hpp.two_le), prm_pi hpp]
        have e3 : x / y < p * p ↔ Nat.sqrt (x / y) < p := by rw [Nat.sqrt_lt]
        by_cases hcond : prm c < p ∧ Nat.sqrt (x / y) < p
        · have hz := e3.2 hcond.2
          have hxn := xn_le (x := x) hy hp.2 hz
          have h0 : 0 < p * p := (Nat.zero_le _).trans_lt hz
          have e4 : (∑ q ∈ Icc 1 y, if p.Prime ∧ q.Prime ∧ p < q ∧ c < π p ∧ x / y < p * p ∧
              x < p * p * q then (p : ℤ) * q else 0) = g x y p := by
            unfold g
            have := P2.primeSum_sub (a := max (x / (p * p)) p + 1) (b := y)
            rcases Nat.lt_or_ge (max (x / (p * p)) p) y with hlt | hge
            · have := this (by omega) (by omega)
              rw [Nat.add_sub_cancel] at this
              rw [← this, Finset.sum_mul, ← Finset.sum_filter]
              rw [← Finset.sum_subset_zero_on_sdiff (s₁ := (Icc (max (x / (p * p)) p + 1) y).filter Nat.Prime)
                (s₂ := (Icc 1 y).filter _) (f := fun q => (q : ℤ) * p) (g := fun q => (p : ℤ) * q)]
              · intro q
                simp only [Finset.mem_filter, Finset.mem_Icc]
                rintro ⟨⟨h1, h2⟩, h3⟩
                have h4 : x / (p * p) < q := by omega
                rw [Nat.div_lt_iff_lt_mul h0, Nat.mul_comm] at h4
                exact ⟨⟨by omega, h2⟩, hpp, h3, by omega, e2.2 hcond.1, hz, h4⟩
              · intro q hq
                exfalso
                simp only [Finset.mem_sdiff, Finset.mem_filter, Finset.mem_Icc] at hq
                obtain ⟨⟨⟨h1, h2⟩, h3, h4, h5, h6, h7, h8⟩, h9⟩ := hq
                apply h9
                have : x / (p * p) < q := by rw [Nat.div_lt_iff_lt_mul h0, Nat.mul_comm]; exact h8
                exact ⟨⟨by omega, h2⟩, h4⟩
              · intro q _; ring
            · have : max (x / (p * p)) p = y := by omega
              rw [this, sub_self, zero_mul]
              apply Finset.sum_eq_zero
              intro q hq
              rw [Finset.mem_Icc] at hq
              rw [if_neg]
              rintro ⟨_, _, h1, _, _, h2⟩
              rw [Nat.mul_comm, ← Nat.div_lt_iff_lt_mul h0] at h2
              omega
          rw [e4]
          by_cases hpy : p < y
          · rw [if_pos]
            simp only [Finset.mem_filter, Finset.mem_Ico]
            exact ⟨⟨by omega, hpy⟩, hpp⟩
          · have : p = y := by omega
            subst this
            rw [if_neg (by simp)]
            unfold g
            have : max (x / (p * p)) p = p := by omega
            rw [this]; ring
        · rw [if_neg]
          · apply Finset.sum_eq_zero
            intro q _
            rw [if_neg]
            rintro ⟨_, _, _, h1, h2, _⟩
            exact hcond ⟨e2.1 h1, e3.1 h2⟩
          · simp only [Finset.mem_filter, Finset.mem_Ico]
            omega
      · rw [if_neg (by simp [hpp])]
        apply Finset.sum_eq_zero
        intro q _
        rw [if_neg (by simp [hpp])]
    rw [Finset.sum_congr rfl key, ← Finset.sum_filter]
    unfold gs
    apply Finset.sum_congr _ (fun _ _ => rfl)
    ext p
    simp only [Finset.mem_filter, Finset.mem_Icc, Finset.mem_Ico]
    constructor
    · rintro ⟨_, h⟩; exact h
    · rintro ⟨h1, h2⟩; exact ⟨by omega, h1, h2⟩
  rw [e1]
  split
  · rfl
  · unfold gs
    rw [Finset.Ico_eq_empty (by omega)]; rfl

theorem S2TrivialSum_le (x y c : ℕ) : S2TrivialSum x y c ≤ y * y * (y * y) := by
  unfold S2TrivialSum trivialPairs
  refine (Finset.sum_le_card_nsmul _ _ (y * y) ?_).trans ?_
  · rintro ⟨p, q⟩ h
    simp only [Finset.mem_filter, Finset.mem_product, Finset.mem_Icc] at h
    exact Nat.mul_le_mul h.1.1.2 h.1.2.2
  · rw [smul_eq_mul]
    refine Nat.mul_le_mul_right _ ((Finset.card_filter_le _ _).trans ?_)
    simp

theorem S2TrivialSum_max {x y c : ℕ} (h : 1 ≤ c ∨ y < 3) : S2TrivialSum x y (max c 1) = S2TrivialSum x y c := by
  rcases h with h | h
  · rw [Nat.max_eq_left h]
  · have : ∀ c, S2TrivialSum x y c = 0 := by
      intro c
      unfold S2TrivialSum trivialPairs
      rw [Finset.filter_false_of_mem, Finset.sum_empty]
      rintro ⟨p, q⟩ hm ⟨h1, _, h2, _⟩
      simp only [Finset.mem_product, Finset.mem_Icc] at hm
      have := h1.two_le
      simp only at h2 this
      omega
    rw [this, this]

theorem omp_ok {sched : Scheduler} (hs : sched.Valid) {x y c : ℕ} (threads : ℤ) (hy : 1 ≤ y)
    (hy63 : y < 2 ^ 62) (hz63 : x / y < 2 ^ 63) (hc9 : c ≤ 9)
    {sums : Vec ℕ} (hst : SumTable sums y) :
    Ok (omp R sched x y (x / y) c sums threads) (fun r => Rep r (S2TrivialSum x y (max c 1) : ℤ)) := by
  unfold omp
  refine Ok.bind (P := fun t : ℤ => 1 ≤ t ∧ t ≤ 2 ^ 61) ?_ (fun t ht => ?_)
  · unfold idealNumThreads
    dsimp only
    rw [if_neg (by norm_num)]
    refine Ok.pure ⟨le_max_left _ _, ?_⟩
    rw [show max (1 : ℤ) (10 ^ 7) = 10 ^ 7 by norm_num, Int.tdiv_eq_ediv_of_nonneg (by omega)]
    omega
  refine Ok.bind (PiTable.build_ok y) (fun pi hpi => ?_)
  rw [nthPrime_max hc9]
  simp only [ok_bind]
  obtain ⟨n, hn⟩ : ∃ n : ℕ, t = n := ⟨t.toNat, by omega⟩
  subst hn
  rw [Int.toNat_natCast]
  have hn1 : 1 ≤ n := by omega
  have hn2 : n ≤ 2 ^ 61 := by omega
  have hq : max (prm (max c 1)) (Nat.sqrt (x / y)) < 2 ^ 62 := by
    have h1 : Nat.sqrt (x / y) < 2 ^ 62 := by rw [Nat.sqrt_lt']; omega
    have h2 : prm (max c 1) ≤ prm 9 := prm_le_prm (by omega)
    rw [prm_9] at h2
    omega
  have h0 := rep_ofInt (R := R) 0 (by norm_num) (by norm_num)
  have hsq : x / y < (Nat.sqrt (x / y) + 1) * (Nat.sqrt (x / y) + 1) := Nat.lt_succ_sqrt _
  refine (ompFor_ok Rep (fun _ => True) _ rep_add h0 h0 trivial (hs 3 0 n) (fun i _ r z _ hi _ hr =>
    Ok.bind (thread_ok (x := x) (y := y) (sqrtz := Nat.sqrt (x / y)) (primec := prm (max c 1)) hn1 hn2 hq hy hy63 hpi.2 hpi.1 hst
      hsq hi hr) (fun r' hr' => Ok.pure ⟨trivial, hr'⟩))).mono (fun r hr => ?_)
  rw [zero_add] at hr
  rw [S2TrivialSum_eq hy (le_max_right c 1)]
  by_cases hle : max (prm (max c 1)) (Nat.sqrt (x / y)) + 1 ≤ y
  · simp only [if_pos hle] at hr ⊢
    generalize max (prm (max c 1)) (Nat.sqrt (x / y)) + 1 = start at *
    obtain ⟨I, hI⟩ : ∃ I, (y - start + n - 1) / n = I := ⟨_, rfl⟩
    rw [hI] at hr
    have hIn : y ≤ start + I * n := by
      have h1 := Nat.div_add_mod (y - start + n - 1) n
      have h2 := Nat.mod_lt (y - start + n - 1) (show n > 0 by omega)
      rw [hI, Nat.mul_comm] at h1
      omega
    have key : ∀ m, ∑ i ∈ Ico 0 m, gs x y (min (start + I * i) y) (min (start + I * (i + 1)) y) =
        gs x y start (min (start + I * m) y) := by
      intro m
      induction m with
      | zero => simp [gs, hle]
      | succ m ih =>
        rw [Finset.sum_Ico_succ_top (by omega), ih, gs_add]
        · omega
        · have : I * m ≤ I * (m + 1) := Nat.mul_le_mul_left _ (by omega)
          omega
    rw [key, Nat.min_eq_right hIn] at hr
    exact hr
  · simp only [if_neg hle] at hr ⊢
    simpa using hr

end S2Trivial
end PS
