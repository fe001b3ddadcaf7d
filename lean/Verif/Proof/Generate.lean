import Verif.Model.Generate
import Verif.Proof.Loops
import Verif.Proof.Width
import Verif.Proof.Misc
import Verif.Proof.Core
import Mathlib.NumberTheory.ArithmeticFunction.Misc

namespace PS
open Finset
open scoped Classical
local notation "π" => Nat.primeCounting

theorem pi_succ (n : ℕ) : π (n + 1) = π n + if (n + 1).Prime then 1 else 0 := by
  simp only [Nat.primeCounting, Nat.primeCounting']
  rw [Nat.count_succ]

/-- `k` has a prime factor `p < i` with `p² ≤ k`. -/
def Hit (i k : ℕ) : Prop := ∃ p, p.Prime ∧ p < i ∧ p ∣ k ∧ p * p ≤ k

theorem hit_succ_of_prime {i k : ℕ} (hi : i.Prime) : Hit (i + 1) k ↔ Hit i k ∨ (i * i ≤ k ∧ i ∣ k) := by
  constructor
  · rintro ⟨p, h1, h2, h3, h4⟩
    rcases Nat.lt_or_ge p i with h | h
    · exact Or.inl ⟨p, h1, h, h3, h4⟩
    · have : p = i := by omega
      subst this; exact Or.inr ⟨h4, h3⟩
  · rintro (⟨p, h1, h2, h3, h4⟩ | ⟨h1, h2⟩)
    · exact ⟨p, h1, by omega, h3, h4⟩
    · exact ⟨i, hi, by omega, h2, h1⟩

theorem hit_succ_of_not_prime {i k : ℕ} (hi : ¬ i.Prime) : Hit (i + 1) k ↔ Hit i k := by
  constructor
  · rintro ⟨p, h1, h2, h3, h4⟩
    refine ⟨p, h1, ?_, h3, h4⟩
    rcases Nat.lt_or_ge p i with h | h
    · exact h
    · have : p = i := by omega
      subst this; exact absurd h1 hi
  · rintro ⟨p, h1, h2, h3, h4⟩
    exact ⟨p, h1, by omega, h3, h4⟩

/-- For `k ≥ 2` and `i > √k` (or `i = k`): hit iff composite. -/
theorem hit_iff {i k : ℕ} (hk : 2 ≤ k) (hi : k < i * i ∨ k ≤ i) : Hit i k ↔ ¬ k.Prime := by
  constructor
  · rintro ⟨p, h1, h2, h3, h4⟩ hp
    have := (Nat.prime_dvd_prime_iff_eq h1 hp).1 h3
    subst this
    have := h1.two_le
    nlinarith
  · intro hp
    have hm := Nat.minFac_prime (n := k) (by omega)
    have hsq := Nat.minFac_sq_le_self (by omega) hp
    rw [pow_two] at hsq
    refine ⟨k.minFac, hm, ?_, Nat.minFac_dvd k, hsq⟩
    have := hm.two_le
    rcases hi with h | h <;> nlinarith

theorem hit_two (k : ℕ) : ¬ Hit 2 k := by
  rintro ⟨p, h1, h2, _⟩
  have := h1.two_le; omega

theorem lt_sqrt_succ_sq {k max : ℕ} (hk : k ≤ max) : k < (Nat.sqrt max + 1) * (Nat.sqrt max + 1) :=
  lt_of_le_of_lt hk (Nat.sqrt_lt.1 (Nat.lt_succ_self _))

theorem le_of_lt_sqrt {i max : ℕ} (hi : i < Nat.sqrt max + 1) : i ≤ max :=
  le_trans (by omega : i ≤ Nat.sqrt max) (Nat.sqrt_le_self max)

theorem generatePi_ok {max : ℕ} (hmax : π max < 2 ^ 31) :
    Ok (generatePi max) (fun v => v.size = max + 1 ∧ ∀ k, k ≤ max → v.get k = π k) := by
  unfold generatePi
  refine Ok.bind (P := fun v => v.size = max + 1 ∧ ∀ k, 2 ≤ k → k ≤ max →
      v.get k = if k.Prime then 1 else 0) ?_ (fun sieve hs => ?_)
  · have := forUp_ok' (lo := 2) (hi := Nat.sqrt max + 1) (s := (Vec.mk' (max + 1) 1 : Vec ℕ))
      (f := fun i sieve => do
        let si ← sieve.rd i
        if si ≠ 0 then
          forStep (i * i) (max + 1) i sieve (fun j sieve => sieve.wr j 0)
        else pure sieve)
      (fun i v => v.size = max + 1 ∧ ∀ k, k ≤ max → v.get k = if Hit i k then 0 else 1) ?_ ?_
    · refine this.mono (fun v hv => ⟨hv.1, fun k h1 h2 => ?_⟩)
      rw [hv.2 k h2]
      have hlt := lt_sqrt_succ_sq h2
      have : Hit (Max.max 2 (Nat.sqrt max + 1)) k ↔ ¬ k.Prime := by
        apply hit_iff h1
        left
        exact lt_of_lt_of_le hlt (Nat.mul_le_mul (by omega) (by omega))
      rw [this]
      by_cases hp : k.Prime <;> simp [hp]
    · refine ⟨by simp, fun k hk => ?_⟩
      rw [Vec.get_mk' _ _ _ (by omega), if_neg (hit_two k)]
    · intro i v h1 h2 hv
      have hile := le_of_lt_sqrt h2
      rw [Vec.rd_ok (by rw [hv.1]; omega)]
      simp only [ok_bind]
      rw [hv.2 i hile]
      have hcomp := hit_iff (i := i) (k := i) h1 (Or.inr le_rfl)
      refine Ok.ite (fun h => ?_) (fun h => Ok.pure ?_)
      · have hprime : i.Prime := by
          by_contra hc
          rw [if_pos (hcomp.2 hc)] at h
          exact h rfl
        refine (forStep_map_dvd (fun _ _ => 0) (by omega) (Dvd.intro _ rfl) hv.1
          (fun j w _ hj hw => wr_map hw hj _)).mono (fun v' hv' => ⟨hv'.1, fun k hk => ?_⟩)
        rw [hv'.2, hv.2 k hk, hit_succ_of_prime hprime]
        by_cases hc : i * i ≤ k ∧ i ∣ k
        · rw [if_pos ⟨hc.1, by omega, hc.2⟩, if_pos (Or.inr hc)]
        · rw [if_neg (by tauto)]
          simp [hc]
      · have hnp : ¬ i.Prime := by
          rw [← hcomp]
          by_contra hc
          rw [if_neg hc] at h
          exact h (by decide)
        refine ⟨hv.1, fun k hk => ?_⟩
        rw [hv.2 k hk, hit_succ_of_not_prime hnp]
  · simp only
    refine Ok.bind (P := fun r => r.2.size = max + 1 ∧ ∀ k, k ≤ max → r.2.get k = π k) ?_
      (fun r hr => Ok.pure hr)
    refine (forUp_ok' (fun i (r : ℕ × Vec ℕ) => r.1 = π (i - 1) ∧ r.2.size = max + 1 ∧
      ∀ k, k ≤ max → r.2.get k = if k < i then π k else 0) ?_ ?_).mono (fun r hr => ?_)
    · refine ⟨(by decide : 0 = π (2 - 1)), by simp, fun k hk => ?_⟩
      rw [Vec.get_mk' _ _ _ (by omega)]
      split
      · have : k = 0 ∨ k = 1 := by omega
        rcases this with rfl | rfl <;> decide
      · rfl
    · rintro i ⟨pix, pi⟩ h1 h2 ⟨e1, e2, e3⟩
      simp only at e1 e2 e3 ⊢
      rw [Vec.rd_ok (by rw [hs.1]; omega)]
      simp only [ok_bind]
      have hpi : pix + sieve.get i = π i := by
        have := pi_succ (i - 1)
        rw [show i - 1 + 1 = i by omega] at this
        rw [hs.2 i h1 (by omega), e1, this]
      have hle := pi_mono (show i ≤ max by omega)
      rw [fit_ok (by omega), ok_bind]
      refine Ok.bind (wr_map e2 (by omega) _) (fun w hw => Ok.pure ?_)
      refine ⟨?_, hw.1, fun k hk => ?_⟩
      · simpa using hpi
      · rw [hw.2, hpi]
        by_cases hk2 : k = i
        · subst hk2; simp
        · rw [if_neg hk2, e3 k hk]
          by_cases hk3 : k < i
          · rw [if_pos hk3, if_pos (by omega)]
          · rw [if_neg hk3, if_neg (by omega)]
    · obtain ⟨_, e2, e3⟩ := hr
      refine ⟨e2, fun k hk => ?_⟩
      rw [e3 k hk, if_pos (by omega)]

theorem generateLpf_ok {max : ℕ} (hmax : max < 2 ^ 31) :
    Ok (generateLpf max) (fun v => v.size = max + 1 ∧ (∀ k, 2 ≤ k → k ≤ max → v.get k = k.minFac) ∧
      (1 ≤ max → v.get 1 = 2 ^ 31 - 1)) := by
  unfold generateLpf
  refine Ok.bind (P := fun v => v.size = max + 1 ∧ ∀ k, 2 ≤ k → k ≤ max →
      v.get k = if k.Prime then 1 else k.minFac) ?_ (fun sieve hs => ?_)
  · have := forUp_ok' (lo := 2) (hi := Nat.sqrt max + 1) (s := (Vec.mk' (max + 1) 1 : Vec ℕ))
      (f := fun i lpf => do
        let li ← lpf.rd i
        if li = 1 then
          forStep (i * i) (max + 1) i lpf (fun j lpf => do
            let lj ← lpf.rd j
            if lj = 1 then do
              let v ← fit 31 i
              lpf.wr j v
            else pure lpf)
        else pure lpf)
      (fun i v => v.size = max + 1 ∧ ∀ k, k ≤ max → v.get k = if Hit i k then k.minFac else 1) ?_ ?_
    · refine this.mono (fun v hv => ⟨hv.1, fun k h1 h2 => ?_⟩)
      rw [hv.2 k h2]
      have hlt := lt_sqrt_succ_sq h2
      have : Hit (Max.max 2 (Nat.sqrt max + 1)) k ↔ ¬ k.Prime := by
        apply hit_iff h1
        left
        exact lt_of_lt_of_le hlt (Nat.mul_le_mul (by omega) (by omega))
      rw [this]
      by_cases hp : k.Prime <;> simp [hp]
    · refine ⟨by simp, fun k hk => ?_⟩
      rw [Vec.get_mk' _ _ _ (by omega), if_neg (hit_two k)]
    · intro i v h1 h2 hv
      have hile := le_of_lt_sqrt h2
      rw [Vec.rd_ok (by rw [hv.1]; omega)]
      simp only [ok_bind]
      rw [hv.2 i hile]
      have hcomp := hit_iff (i := i) (k := i) h1 (Or.inr le_rfl)
      have hmne : i.minFac ≠ 1 := fun h => by rw [Nat.minFac_eq_one_iff] at h; omega
      refine Ok.ite (fun h => ?_) (fun h => Ok.pure ?_)
      · have hprime : i.Prime := by
          by_contra hc
          rw [if_pos (hcomp.2 hc)] at h
          exact hmne h
        refine (forStep_map_dvd (fun _ x => if x = 1 then i else x) (by omega) (Dvd.intro _ rfl) hv.1
          (fun j w _ hj hw => ?_)).mono (fun v' hv' => ⟨hv'.1, fun k hk => ?_⟩)
        · rw [Vec.rd_ok (by omega)]
          simp only [ok_bind]
          refine Ok.ite (fun hx => ?_) (fun hx => Ok.pure ?_)
          · rw [if_pos hx, fit_ok (by omega), ok_bind]; exact wr_map hw hj _
          · rw [if_neg hx]
            refine ⟨hw, fun k => ?_⟩
            split
            · rename_i h; rw [h]
            · rfl
        · rw [hv'.2, hv.2 k hk, hit_succ_of_prime hprime]
          by_cases hc : i * i ≤ k ∧ i ∣ k
          · rw [if_pos ⟨hc.1, by omega, hc.2⟩, if_pos (Or.inr hc)]
            have hk2 : 2 ≤ k := by nlinarith [hc.1]
            by_cases hh : Hit i k
            · rw [if_pos hh, if_neg]
              intro h; rw [Nat.minFac_eq_one_iff] at h; omega
            · rw [if_neg hh, if_pos rfl]
              apply le_antisymm
              · by_contra hlt
                push Not at hlt
                apply hh
                refine ⟨k.minFac, Nat.minFac_prime (by omega), hlt, Nat.minFac_dvd k, ?_⟩
                exact le_trans (Nat.mul_le_mul (by omega) (by omega)) hc.1
              · exact Nat.minFac_le_of_dvd h1 hc.2
          · rw [if_neg (by tauto)]
            simp [hc]
      · have hnp : ¬ i.Prime := by
          rw [← hcomp]
          by_contra hc
          rw [if_neg hc] at h
          exact h rfl
        refine ⟨hv.1, fun k hk => ?_⟩
        rw [hv.2 k hk, hit_succ_of_not_prime hnp]
  · refine Ok.bind (forUp_map (fun i x => if x = 1 then i else x) hs.1 (fun j w _ hj hw => ?_))
      (fun v hv => ?_)
    · rw [Vec.rd_ok (by omega)]
      simp only [ok_bind]
      refine Ok.ite (fun hx => ?_) (fun hx => Ok.pure ?_)
      · rw [if_pos hx, fit_ok (by omega), ok_bind]; exact wr_map hw hj _
      · rw [if_neg hx]
        refine ⟨hw, fun k => ?_⟩
        split
        · rename_i h; rw [h]
        · rfl
    · have key : ∀ k, 2 ≤ k → k ≤ max → v.get k = k.minFac := by
        intro k h1 h2
        rw [hv.2, if_pos ⟨h1, by omega⟩, hs.2 k h1 h2]
        by_cases hp : k.Prime
        · rw [if_pos hp, if_pos rfl, hp.minFac_eq]
        · rw [if_neg hp, if_neg]
          intro h; rw [Nat.minFac_eq_one_iff] at h; omega
      refine Ok.ite (fun hsz => ?_) (fun hsz => Ok.pure ⟨hv.1, key, by have := hv.1; omega⟩)
      refine (wr_map hv.1 (by rw [hv.1] at hsz; omega) _).mono (fun w hw => ⟨hw.1, ?_, fun _ => ?_⟩)
      · intro k h1 h2
        rw [hw.2, if_neg (by omega), key k h1 h2]
      · rw [hw.2, if_pos rfl]

/-! ## Möbius -/

/-- The prime factors of `k` below `i`. -/
noncomputable def pf (i k : ℕ) : Finset ℕ := k.primeFactors.filter (· < i)

/-- Table content after the primes below `i` have been processed. -/
noncomputable def muInv (i k : ℕ) : ℤ :=
  if ∃ p, p.Prime ∧ p < i ∧ p * p ∣ k then 0 else ∏ p ∈ pf i k, (-(p : ℤ))

theorem pf_succ_of_not {i k : ℕ} (h : ¬ (i.Prime ∧ i ∣ k)) : pf (i + 1) k = pf i k := by
  ext p
  simp only [pf, mem_filter, Nat.mem_primeFactors]
  constructor
  · rintro ⟨⟨h1, h2, h3⟩, h4⟩
    refine ⟨⟨h1, h2, h3⟩, ?_⟩
    rcases Nat.lt_or_ge p i with h5 | h5
    · exact h5
    · have : p = i := by omega
      subst this; exact absurd ⟨h1, h2⟩ h
  · rintro ⟨h1, h4⟩; exact ⟨h1, by omega⟩

theorem pf_succ_of {i k : ℕ} (h : i.Prime) (hd : i ∣ k) (hk : k ≠ 0) :
    pf (i + 1) k = insert i (pf i k) := by
  ext p
  simp only [pf, mem_filter, Nat.mem_primeFactors, mem_insert]
  constructor
  · rintro ⟨h1, h4⟩
    rcases Nat.lt_or_ge p i with h5 | h5
    · exact Or.inr ⟨h1, h5⟩
    · left; omega
  · rintro (rfl | ⟨h1, h4⟩)
    · exact ⟨⟨h, hd, hk⟩, by omega⟩
    · exact ⟨h1, by omega⟩

theorem prod_pf_abs (i k : ℕ) : (∏ p ∈ pf i k, (-(p : ℤ))) = (-1) ^ (pf i k).card * (∏ p ∈ pf i k, p : ℕ) := by
  rw [Finset.prod_neg]
  push_cast
  rfl

theorem prod_pf_pos (i k : ℕ) : 0 < ∏ p ∈ pf i k, p := by
  apply Finset.prod_pos
  intro p hp
  simp only [pf, mem_filter] at hp
  exact (Nat.prime_of_mem_primeFactors hp.1).pos

/-- The prime `i` and the primes below it that divide `j` have a product of at most `j`. -/
theorem abs_muInv_le {i j : ℕ} (hp : i.Prime) (hj : 1 ≤ j) (hd : i ∣ j) : |muInv i j * -(i : ℤ)| ≤ j := by
  unfold muInv
  split
  · simp
  · rw [prod_pf_abs, abs_mul, abs_mul, abs_pow, abs_neg, abs_neg, abs_one, one_pow, one_mul, Nat.abs_cast, Nat.abs_cast]
    have h1 : (∏ p ∈ pf i j, p) * i = ∏ p ∈ pf (i + 1) j, p := by
      rw [pf_succ_of hp hd (by omega), Finset.prod_insert (by simp [pf]), Nat.mul_comm]
    have h2 : ∏ p ∈ pf (i + 1) j, p ∣ j :=
      dvd_trans (Finset.prod_dvd_prod_of_subset _ _ _ (Finset.filter_subset _ _)) (Nat.prod_primeFactors_dvd j)
    have h3 := Nat.le_of_dvd (by omega) h2
    rw [← h1] at h3
    exact_mod_cast h3

theorem generateMoebius_ok {max : ℕ} (hmax : max < 2 ^ 31) :
    Ok (generateMoebius max) (fun v => v.size = max + 1 ∧ ∀ k, 1 ≤ k → k ≤ max → v.get k = mu k) := by
  unfold generateMoebius
  refine Ok.bind (P := fun v => v.size = max + 1 ∧ ∀ k, 1 ≤ k → k ≤ max →
      v.get k = muInv (Nat.sqrt max + 1) k) ?_ (fun tab hs => ?_)
  · by_cases hsq : Nat.sqrt max + 1 < 2
    · unfold forUp
      rw [if_neg (by omega)]
      refine Ok.ok ⟨by simp, fun k h1 h2 => ?_⟩
      rw [Vec.get_mk' _ _ _ (by omega)]
      have : Nat.sqrt max = 0 := by omega
      rw [Nat.sqrt_eq_zero] at this
      omega
    refine forUp_ok (fun i (v : Vec ℤ) => v.size = max + 1 ∧ ∀ k, 1 ≤ k → k ≤ max → v.get k = muInv i k)
      ⟨by simp, fun k h1 h2 => ?_⟩ (by omega) (fun i v h1 h2 hv => ?_)
    · rw [Vec.get_mk' _ _ _ (by omega)]
      unfold muInv
      rw [if_neg]
      · have : pf 2 k = ∅ := by
          ext p
          simp only [pf, mem_filter, Nat.mem_primeFactors, Finset.notMem_empty, iff_false]
          rintro ⟨⟨hp, _⟩, h⟩
          have := hp.two_le; omega
        rw [this]; rfl
      · rintro ⟨p, hp, h, _⟩
        have := hp.two_le; omega
    · have hile := le_of_lt_sqrt h2
      rw [Vec.rd_ok (by rw [hv.1]; omega)]
      simp only [ok_bind]
      rw [hv.2 i (by omega) hile]
      have htest : muInv i i = 1 ↔ i.Prime := by
        constructor
        · intro h
          by_contra hc
          unfold muInv at h
          split at h
          · omega
          · have hm := Nat.minFac_prime (n := i) (by omega)
            have hlt : i.minFac < i := (Nat.not_prime_iff_minFac_lt h1).1 hc
            rw [prod_pf_abs] at h
            have hmem : i.minFac ∈ pf i i := by
              simp only [pf, mem_filter, Nat.mem_primeFactors]
              exact ⟨⟨hm, Nat.minFac_dvd i, by omega⟩, hlt⟩
            have hdvd := Finset.dvd_prod_of_mem (fun p => p) hmem
            have hle := Nat.le_of_dvd (prod_pf_pos i i) hdvd
            have := hm.two_le
            rcases neg_one_pow_eq_or ℤ (pf i i).card with h' | h' <;> rw [h'] at h <;> omega
        · intro hp
          unfold muInv
          rw [if_neg]
          · have : pf i i = ∅ := by
              ext p
              simp only [pf, mem_filter, Nat.mem_primeFactors, Finset.notMem_empty, iff_false]
              rintro ⟨⟨hpp, hd, _⟩, h⟩
              rw [Nat.prime_dvd_prime_iff_eq hpp hp] at hd
              omega
            rw [this]; rfl
          · rintro ⟨p, hpp, h, hd⟩
            have := (Nat.prime_dvd_prime_iff_eq hpp hp).1 (dvd_trans (Dvd.intro _ rfl) hd)
            omega
      refine Ok.ite (fun h => ?_) (fun h => Ok.pure ?_)
      · have hp := htest.1 h
        refine Ok.bind (forStep_map_dvd' (fun _ x => x * -(i : ℤ)) (by omega) dvd_rfl hv.1
          (fun j w hj1 hdj hj hw hwv => ?_)) (fun v' hv' => ?_)
        · rw [Vec.rd_ok (by omega)]
          simp only [ok_bind]
          rw [fitI_ok (by omega) (by omega), ok_bind]
          have hb := abs_le.1 (abs_muInv_le hp (show 1 ≤ j by omega) hdj)
          rw [← hv.2 j (by omega) (by omega), ← hwv] at hb
          rw [fitI_ok (by omega) (by omega), ok_bind]
          exact wr_map hw hj _
        · refine (forStep_map_dvd (fun _ _ => 0) (by nlinarith) dvd_rfl hv'.1
            (fun j w _ hj hw => wr_map hw hj _)).mono (fun v2 hv2 => ⟨hv2.1, fun k hk1 hk2 => ?_⟩)
          rw [hv2.2, hv'.2, hv.2 k hk1 hk2]
          by_cases hc : i * i ∣ k
          · rw [if_pos ⟨Nat.le_of_dvd (by omega) hc, by omega, hc⟩]
            unfold muInv
            rw [if_pos ⟨i, hp, by omega, hc⟩]
          · rw [if_neg (by tauto)]
            by_cases hd : i ∣ k
            · rw [if_pos ⟨Nat.le_of_dvd (by omega) hd, by omega, hd⟩]
              unfold muInv
              by_cases hq : ∃ p, p.Prime ∧ p < i ∧ p * p ∣ k
              · obtain ⟨p, q1, q2, q3⟩ := hq
                rw [if_pos ⟨p, q1, q2, q3⟩, if_pos ⟨p, q1, by omega, q3⟩]; simp
              · rw [if_neg hq, if_neg]
                · rw [pf_succ_of hp hd (by omega), Finset.prod_insert (by simp [pf])]
                  ring
                · rintro ⟨p, q1, q2, q3⟩
                  rcases Nat.lt_or_ge p i with h5 | h5
                  · exact hq ⟨p, q1, h5, q3⟩
                  · have : p = i := by omega
                    subst this; exact hc q3
            · rw [if_neg (by tauto)]
              unfold muInv
              rw [pf_succ_of_not (by tauto)]
              have : (∃ p, p.Prime ∧ p < i ∧ p * p ∣ k) ↔ (∃ p, p.Prime ∧ p < i + 1 ∧ p * p ∣ k) := by
                constructor
                · rintro ⟨p, q1, q2, q3⟩; exact ⟨p, q1, by omega, q3⟩
                · rintro ⟨p, q1, q2, q3⟩
                  refine ⟨p, q1, ?_, q3⟩
                  rcases Nat.lt_or_ge p i with h5 | h5
                  · exact h5
                  · have : p = i := by omega
                    subst this; exact absurd q3 hc
              simp only [this]
      · have hnp : ¬ i.Prime := fun hc => h (htest.2 hc)
        refine ⟨hv.1, fun k hk1 hk2 => ?_⟩
        rw [hv.2 k hk1 hk2]
        unfold muInv
        rw [pf_succ_of_not (by tauto)]
        have : (∃ p, p.Prime ∧ p < i ∧ p * p ∣ k) ↔ (∃ p, p.Prime ∧ p < i + 1 ∧ p * p ∣ k) := by
          constructor
          · rintro ⟨p, q1, q2, q3⟩; exact ⟨p, q1, by omega, q3⟩
          · rintro ⟨p, q1, q2, q3⟩
            refine ⟨p, q1, ?_, q3⟩
            rcases Nat.lt_or_ge p i with h5 | h5
            · exact h5
            · have : p = i := by omega
              subst this; exact absurd q1 hnp
        simp only [this]
  · refine (forUp_map (fun i m => if m = (i : ℤ) then 1 else if m = -(i : ℤ) then -1
        else if m < 0 then 1 else if m > 0 then -1 else m) hs.1 (fun j w _ hj hw => ?_)).mono
        (fun v hv => ⟨hv.1, fun k h1 h2 => ?_⟩)
    · rw [Vec.rd_ok (by omega)]
      simp only [ok_bind]
      split_ifs
      · exact wr_map hw hj _
      · exact wr_map hw hj _
      · exact wr_map hw hj _
      · exact wr_map hw hj _
      · refine Ok.pure ⟨hw, fun k => ?_⟩
        split
        · rename_i h; rw [h]
        · rfl
    · rw [hv.2, hs.2 k h1 h2]
      rcases Nat.eq_or_lt_of_le h1 with hk1 | hk1
      · subst hk1
        rw [if_neg (by omega)]
        unfold muInv
        rw [if_neg]
        · simp [pf, mu]
        · rintro ⟨p, hp, _, hd⟩
          have := hp.two_le
          have := Nat.le_of_dvd (by omega) hd
          nlinarith
      · rw [if_pos ⟨by omega, by omega⟩]
        have hlt := lt_sqrt_succ_sq h2
        set s := Nat.sqrt max + 1 with hsdef
        by_cases hsf : Squarefree k
        · have e0 : muInv s k = (-1) ^ (pf s k).card * (∏ p ∈ pf s k, p : ℕ) := by
            unfold muInv
            rw [if_neg, prod_pf_abs]
            rintro ⟨p, hp, _, hd⟩
            have := hsf p hd
            exact hp.not_isUnit this
          have hmu : mu k = (-1) ^ k.primeFactors.card := by
            rw [mu, ArithmeticFunction.moebius_apply_of_squarefree hsf,
              ← (ArithmeticFunction.cardDistinctFactors_eq_cardFactors_iff_squarefree (by omega)).2 hsf,
              ArithmeticFunction.cardDistinctFactors_apply, ← List.card_toFinset,
              Nat.primeFactors]
          have hprod : ∏ p ∈ k.primeFactors, p = k := Nat.prod_primeFactors_of_squarefree hsf
          have hsplit := Finset.prod_filter_mul_prod_filter_not k.primeFactors (· < s) (fun p => p)
          have hcard := Finset.card_filter_add_card_filter_not (s := k.primeFactors) (· < s)
          rw [hprod] at hsplit
          rw [← pf] at hcard
          change (∏ p ∈ pf s k, p) * _ = k at hsplit
          have hsmall : (k.primeFactors.filter (fun p => ¬ p < s)).card ≤ 1 := by
            by_contra hc
            push Not at hc
            obtain ⟨a, ha, b, hb, hab⟩ := Finset.one_lt_card.1 hc
            simp only [mem_filter, Nat.mem_primeFactors] at ha hb
            have hcop := (Nat.coprime_primes ha.1.1 hb.1.1).2 hab
            have := Nat.le_of_dvd (by omega) (hcop.mul_dvd_of_dvd_of_dvd ha.1.2.1 hb.1.2.1)
            have : s * s ≤ a * b := Nat.mul_le_mul (by omega) (by omega)
            omega
          have hpos := prod_pf_pos s k
          rw [e0, hmu]
          generalize ∏ p ∈ pf s k, p = P at *
          rcases Nat.le_one_iff_eq_zero_or_eq_one.1 hsmall with h0 | h0
          · rw [Finset.card_eq_zero.1 h0] at hsplit
            rw [h0] at hcard
            simp only [Finset.prod_empty, mul_one] at hsplit
            rw [← hcard, add_zero]
            rcases neg_one_pow_eq_or ℤ (pf s k).card with h' | h' <;> rw [h']
            · rw [if_pos (by omega)]
            · rw [if_neg (by omega), if_pos (by omega)]
          · obtain ⟨q, hq⟩ := Finset.card_eq_one.1 h0
            have hqm : q ∈ k.primeFactors.filter (fun p => ¬ p < s) := by rw [hq]; simp
            simp only [mem_filter, Nat.mem_primeFactors] at hqm
            rw [hq, Finset.prod_singleton] at hsplit
            have hq2 := hqm.1.1.two_le
            have hPk : P < k := by nlinarith
            rw [← hcard, h0, pow_succ]
            rcases neg_one_pow_eq_or ℤ (pf s k).card with h' | h' <;> rw [h']
            · rw [if_neg (by omega), if_neg (by omega), if_neg (by omega), if_pos (by omega)]
              norm_num
            · rw [if_neg (by omega), if_neg (by omega), if_pos (by omega)]
              norm_num
        · have hmu : mu k = 0 := ArithmeticFunction.moebius_eq_zero_of_not_squarefree hsf
          have : muInv s k = 0 := by
            unfold muInv
            rw [if_pos]
            rw [Nat.squarefree_iff_prime_squarefree] at hsf
            push Not at hsf
            obtain ⟨p, hp, hd⟩ := hsf
            refine ⟨p, hp, ?_, hd⟩
            have := Nat.le_of_dvd (by omega) hd
            by_contra hc
            have : s * s ≤ p * p := Nat.mul_le_mul (by omega) (by omega)
            omega
          rw [this, hmu]
          rw [if_neg (by omega), if_neg (by omega), if_neg (by omega), if_neg (by omega)]

end PS
