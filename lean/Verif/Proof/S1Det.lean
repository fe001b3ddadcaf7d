import Verif.Proof.S1

/-!
# `S1` returns a value that does not depend on the schedule, also where `phi_sum` is wrong
-/

namespace PS
open Finset LawfulRes Res
local notation "π" => Nat.primeCounting

theorem rep_val_self (r : I256) : Rep r r.val := by
  show r.val = I256.wrap r.val
  rw [I256.wrap_of_inRange (I256.val_range r)]

theorem shr_one_total (a : I256) : ∃ r, I256.shr a 1 = .ok r := by
  unfold I256.shr I256.shr128 I256.shl128
  simp

theorem phiSum256_total {primes : Vec ℕ} {N : ℕ} (ht : PrimeTable primes N) (a : ℕ) :
    ∀ (sign : ℤ) (x : ℕ) (sum : I256), a ≤ N → (sign = 1 ∨ sign = -1) → 1 ≤ x →
      ∃ r, phiSum256 primes a sign x sum = .ok r := by
  induction a with
  | zero =>
    intro sign x sum _ _ _
    unfold phiSum256
    obtain ⟨r, hr⟩ := shr_one_total (I256.mul (I256.ofInt x) (I256.add (I256.ofInt x) (I256.ofInt 1)))
    dsimp only
    rw [hr]
    exact ⟨_, rfl⟩
  | succ a ih =>
    intro sign x sum ha hs hx
    unfold phiSum256
    rw [ht.rd (by omega) ha]
    simp only [ok_bind]
    split
    · exact ⟨_, rfl⟩
    · rename_i hlt
      have hp := prm_pos (a + 1)
      rw [cdiv_ok hp]
      simp only [ok_bind]
      have hx2 : 1 ≤ x / prm (a + 1) := Nat.div_pos (by omega) hp
      split
      · rename_i h63
        rw [phiSum128_ok ht a a (-sign) (x / prm (a + 1)) 0 le_rfl (by omega) (by omega) hx2 (by omega) (by simp)]
        simp only [ok_bind, pure_eq_ok]
        exact ih _ _ _ (by omega) hs hx
      · obtain ⟨r, hr⟩ := ih (-sign) (x / prm (a + 1)) (I256.ofInt 0) (by omega) (by omega) hx2
        rw [hr]
        simp only [ok_bind]
        exact ih _ _ _ (by omega) hs hx

theorem phiSumM_total (x a : ℕ) (ha : prm a < 2 ^ 31) : ∃ r, phiSumM x a = .ok r := by
  unfold phiSumM
  split
  · rw [phiSum64_ok x a (by omega) ha]; exact ⟨_, rfl⟩
  · split
    · exact phiSum256_total smallPrimes_table a 1 x _ (by omega) (Or.inl rfl) (by omega)
    · rw [generateNPrimesT_eq ha, ok_bind]
      exact phiSum256_total (generateNPrimes_table a) a 1 x _ le_rfl (Or.inl rfl) (by omega)

theorem s1Loop_det {xb x y c : ℕ} (hc : prm c < 2 ^ 31) (hyy : y * y < 2 ^ xb) {primes : Vec ℕ} (ht : PrimeTable primes (π y)) (n : ℕ) :
    ∀ (mu : ℤ) (b s : ℕ), primes.size - (b + 1) = n → 1 ≤ s → s ≤ y →
    ∃ D : ℤ, ∀ (acc : I256) (z : ℤ), Rep acc z →
      Ok (s1Loop xb x y c primes mu (b + 1) s acc) (fun r => Rep r (z + D)) := by
  induction n using Nat.strongRecOn with
  | _ n ih =>
    intro mu b s hn hs hsy
    by_cases hb : b + 1 < primes.size
    · have hbπ : b + 1 ≤ π y := by rw [ht.1] at hb; omega
      have hp := prm_pos (b + 1)
      have hpy : prm (b + 1) ≤ y := (prm_le_iff_le_pi (by omega)).2 hbπ
      have hfit := fit_ok (lt_of_le_of_lt (Nat.mul_le_mul hsy hpy) hyy)
      by_cases h : s * prm (b + 1) > y
      · refine ⟨0, fun acc z hacc => ?_⟩
        unfold s1Loop
        rw [if_pos hb, ht.rd (by omega) hbπ]
        simp only [ok_bind]
        rw [hfit, ok_bind, if_pos h]
        exact Ok.pure (by simpa using hacc)
      · have hn1 : 1 ≤ s * prm (b + 1) := Nat.mul_pos hs hp
        obtain ⟨ph, hph⟩ := phiSumM_total (x / (s * prm (b + 1))) c hc
        obtain ⟨D1, h1⟩ := ih _ (by omega) (-mu) (b + 1) (s * prm (b + 1)) rfl hn1 (by omega)
        obtain ⟨D2, h2⟩ := ih _ (by omega) mu (b + 1) s rfl hs hsy
        refine ⟨(mul ph (ofInt (mu * ((s * prm (b + 1) : ℕ) : ℤ))) : I256).val + D1 + D2, fun acc z hacc => ?_⟩
        unfold s1Loop
        rw [if_pos hb, ht.rd (by omega) hbπ]
        simp only [ok_bind]
        rw [hfit, ok_bind, if_neg h, cdiv_ok hn1]
        simp only [ok_bind]
        rw [show (phiSumR (x / (s * prm (b + 1))) c : M I256) = .ok ph from hph]
        simp only [ok_bind]
        refine Ok.bind (h1 (ofInt 0) 0 (rep_ofInt (R := I256) 0 (by norm_num) (by norm_num))) (fun r hr => ?_)
        refine (h2 _ _ (rep_add _ _ _ _ (rep_add _ _ _ _ hacc (rep_val_self _)) hr)).mono (fun q hq => ?_)
        convert hq using 1
        ring
    · refine ⟨0, fun acc z hacc => ?_⟩
      unfold s1Loop
      rw [if_neg hb]
      exact Ok.pure (by simpa using hacc)

theorem s1Master_det (xb yb x y c : ℕ) (hc : prm c < 2 ^ 31) (hyy : y * y < 2 ^ xb) (hyb : y < 2 ^ yb) : ∃ D : ℤ, ∀ sched : Scheduler, sched.Valid →
    Ok (s1Master I256 sched xb yb x y c) (fun r => Rep r D) := by
  obtain ⟨ph0, hph0⟩ := phiSumM_total x c hc
  have ht := generatePrimes_table y
  have hb : ∀ b, c + 1 ≤ b → b < π y + 1 → ∃ D : ℤ, ∀ (r : I256) (z : ℤ), Rep r z →
      Ok (do
        let p ← (generatePrimes y).rd b
        let xp ← cdiv x p
        let ph ← phiSumR (R := I256) xp c
        let s1 := sub r (mul ph (ofInt p))
        let r ← s1Loop xb x y c (generatePrimes y) 1 (b + 1) p (ofInt 0)
        pure ((), add s1 r)) (fun sr => True ∧ Rep sr.2 (z + D)) := by
    intro b h1 h2
    obtain ⟨ph, hph⟩ := phiSumM_total (x / prm b) c hc
    obtain ⟨D, hD⟩ := s1Loop_det (xb := xb) (x := x) (y := y) (c := c) hc hyy ht _ 1 b (prm b) rfl (prm_pos b)
      ((prm_le_iff_le_pi (by omega)).2 (by omega))
    refine ⟨-(mul ph (ofInt ((prm b : ℕ) : ℤ)) : I256).val + D, fun r z hr => ?_⟩
    rw [ht.rd (by omega) (by omega)]
    simp only [ok_bind]
    rw [cdiv_ok (prm_pos b)]
    simp only [ok_bind]
    rw [show (phiSumR (x / prm b) c : M I256) = .ok ph from hph]
    simp only [ok_bind]
    refine Ok.bind (hD (ofInt 0) 0 (rep_ofInt (R := I256) 0 (by norm_num) (by norm_num)))
      (fun q hq => Ok.pure ⟨trivial, ?_⟩)
    have := rep_add _ _ _ _ (rep_sub _ _ _ _ hr (rep_val_self (mul ph (ofInt ((prm b : ℕ) : ℤ))))) hq
    convert this using 1
    ring
  choose! D hD using hb
  refine ⟨ph0.val + ∑ b ∈ Ico (c + 1) (π y + 1), D b, fun sched hs => ?_⟩
  unfold s1Master
  rw [generatePrimesT_eq hyb, ok_bind, show (phiSumR x c : M I256) = .ok ph0 from hph0]
  simp only [ok_bind]
  rw [ht.1]
  exact ompFor_ok Rep (fun _ => True) D rep_add (rep_ofInt (R := I256) 0 (by norm_num) (by norm_num))
    (rep_val_self ph0) trivial (hs 1 (c + 1) (π y + 1)) (fun b _ r z h1 h2 _ hr => hD b h1 h2 r z hr)

/-- For arguments that use `int256_t`. -/
theorem s1_det {x y c : ℕ} (hx : 2 ^ 63 ≤ x ∨ 2 ^ 32 ≤ y) (hc : prm c < 2 ^ 31) (hy : y < 2 ^ 63) :
    ∃ D : ℤ, ∀ sched : Scheduler, sched.Valid → Ok (s1 sched x y c) (fun r => Rep r D) := by
  have hyy : y * y < 2 ^ 127 := lt_of_le_of_lt (Nat.mul_le_mul hy.le hy.le) (by norm_num)
  unfold s1
  by_cases h : y ≤ 2 ^ 32 - 1
  · obtain ⟨D, hD⟩ := s1Master_det 127 32 x y c hc hyy (by omega)
    refine ⟨D, fun sched hs => ?_⟩
    rw [if_pos h, if_neg (by omega)]
    exact Ok.bind (hD sched hs) (fun r hr => Ok.pure hr)
  · obtain ⟨D, hD⟩ := s1Master_det 127 63 x y c hc hyy (by omega)
    refine ⟨D, fun sched hs => ?_⟩
    rw [if_neg h]
    exact Ok.bind (hD sched hs) (fun r hr => Ok.pure hr)

end PS
