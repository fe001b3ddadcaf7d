import Verif.Proof.Width
import Verif.Proof.PrimeSieve
import Verif.Model.PhiSum
import Verif.Props.Int256

namespace PS

open I128 (chk)

theorem chk_ok {x : ℤ} (h1 : -2 ^ 127 ≤ x) (h2 : x < 2 ^ 127) : chk x = .ok x := by
  unfold chk I128.minInt I128.maxInt; rw [if_pos ⟨by omega, by omega⟩]

theorem smallPrimes_table : PrimeTable smallPrimes 9 := by
  refine ⟨rfl, rfl, ?_⟩
  intro i h1 h2
  have : i = 1 ∨ i = 2 ∨ i = 3 ∨ i = 4 ∨ i = 5 ∨ i = 6 ∨ i = 7 ∨ i = 8 ∨ i = 9 := by omega
  rcases this with rfl | rfl | rfl | rfl | rfl | rfl | rfl | rfl | rfl
  · rw [prm_one]; rfl
  · rw [prm_2]; rfl
  · rw [prm_3]; rfl
  · rw [prm_4]; rfl
  · rw [prm_5]; rfl
  · rw [prm_6]; rfl
  · rw [prm_7]; rfl
  · rw [prm_8]; rfl
  · rw [prm_9]; rfl

theorem prm_mul_phiSum_le (x a : ℕ) :
    prm (a + 1) * phiSum (x / prm (a + 1)) a ≤ phiSum x a := by
  have := phiSum_succ x a; omega

theorem phiSum128_ok {primes : Vec ℕ} {N : ℕ} (ht : PrimeTable primes N) (a : ℕ) :
    ∀ (a0 : ℕ) (sign : ℤ) (x : ℕ) (sum : ℤ), a ≤ a0 → a0 ≤ N → (sign = 1 ∨ sign = -1) → 1 ≤ x →
      x < 2 ^ 63 → sum = sign * ((phiSum x a0 : ℤ) - phiSum x a) →
      phiSum128 primes a sign x sum = .ok (sign * phiSum x a0) := by
  induction a with
  | zero =>
    intro a0 sign x sum _ _ hs hx hx2 hsum
    unfold phiSum128
    have hb : (x : ℤ) * (x + 1) ≤ (2 ^ 63 - 1) * 2 ^ 63 :=
      mul_le_mul (by omega) (by omega) (by omega) (by omega)
    have hz := phiSum_zero_mul_two x
    have h0 := phiSum_anti (x := x) (a := 0) (b := a0) (by omega)
    have hp := Nat.mul_pos hx (show 0 < x + 1 by omega)
    have hz' : (phiSum x 0 : ℤ) * 2 = x * (x + 1) := by exact_mod_cast hz
    rw [chk_ok (by omega) (by omega)]
    simp only [ok_bind]
    rw [chk_ok (by omega) (by omega)]
    simp only [ok_bind]
    have hsh : ((x : ℤ) * (x + 1)) >>> 1 = phiSum x 0 := by
      rw [Int.shiftRight_eq_div_pow]; norm_num; omega
    rw [hsh]
    rcases hs with rfl | rfl
    · rw [chk_ok (by omega) (by omega)]
      simp only [ok_bind]
      rw [chk_ok (by omega) (by omega), hsum]
      congr 1; ring
    · rw [chk_ok (by omega) (by omega)]
      simp only [ok_bind]
      rw [chk_ok (by omega) (by omega), hsum]
      congr 1; ring
  | succ a ih =>
    intro a0 sign x sum ha ha0 hs hx hx2 hsum
    unfold phiSum128
    rw [ht.rd (by omega) (by omega)]
    simp only [ok_bind]
    have hb : (x : ℤ) * (x + 1) ≤ (2 ^ 63 - 1) * 2 ^ 63 :=
      mul_le_mul (by omega) (by omega) (by omega) (by omega)
    have hz' : (phiSum x 0 : ℤ) * 2 = x * (x + 1) := by exact_mod_cast phiSum_zero_mul_two x
    have m0 := phiSum_anti (x := x) (a := 0) (b := a0) (by omega)
    have m1 := phiSum_anti (x := x) (a := a + 1) (b := a0) (by omega)
    have m2 := phiSum_anti (x := x) (a := 0) (b := a) (by omega)
    have hp2 := two_le_prm (a + 1)
    split
    · rename_i hle
      have e1 : phiSum x (a + 1) = 1 := by
        apply phiSum_eq_one hx
        have := prm_lt_prm (i := a + 1) (j := a + 1 + 1) (by omega) (by omega)
        omega
      have e2 : phiSum x a0 = 1 := by
        have := phiSum_pos (x := x) (a := a0) hx
        omega
      rw [hsum, e1, e2]
      rcases hs with rfl | rfl <;> rw [chk_ok (by omega) (by omega)] <;> simp
    · rename_i hlt
      have hs' := phiSum_succ x a
      rw [cdiv_ok (by omega)]
      simp only [ok_bind]
      have hx2' : 1 ≤ x / prm (a + 1) := by
        rw [Nat.le_div_iff_mul_le (by omega)]; omega
      rw [ih a (-sign) (x / prm (a + 1)) 0 le_rfl (by omega)
        (by rcases hs with rfl | rfl <;> simp) hx2'
        (lt_of_le_of_lt (Nat.div_le_self _ _) hx2) (by simp)]
      simp only [ok_bind]
      have hterm : -sign * (phiSum (x / prm (a + 1)) a : ℤ) * (prm (a + 1) : ℤ) =
          -sign * ((phiSum x a : ℤ) - phiSum x (a + 1)) := by
        have : (phiSum x a : ℤ) = phiSum x (a + 1) + prm (a + 1) * phiSum (x / prm (a + 1)) a := by
          exact_mod_cast hs'
        rw [this]; ring
      rw [hterm]
      have m3 := phiSum_anti (x := x) (a := a) (b := a + 1) (by omega)
      have hsum' : sum + -sign * ((phiSum x a : ℤ) - phiSum x (a + 1)) =
          sign * ((phiSum x a0 : ℤ) - phiSum x a) := by rw [hsum]; ring
      have c1 : chk (-sign * ((phiSum x a : ℤ) - phiSum x (a + 1))) =
          .ok (-sign * ((phiSum x a : ℤ) - phiSum x (a + 1))) := by
        rcases hs with rfl | rfl <;> apply chk_ok <;> omega
      rw [c1]
      simp only [ok_bind]
      rw [hsum']
      have c2 : chk (sign * ((phiSum x a0 : ℤ) - phiSum x a)) =
          .ok (sign * ((phiSum x a0 : ℤ) - phiSum x a)) := by
        rcases hs with rfl | rfl <;> apply chk_ok <;> omega
      rw [c2]
      simp only [ok_bind]
      exact ih a0 sign x _ (by omega) ha0 hs hx hx2 rfl

/-- No sub-sum `φ(x / (p m), a)` that `phi_sum(x, A)` and `S1` multiply by the next prime `p` (`a < A`, no prime factor of `m` among
the first `a + 1` primes) falls into the range in which the 256-bit multiplication of its negative is wrong (see C34). -/
def NoWindow (x A : ℕ) : Prop :=
  ∀ m a, a < A → Rough (a + 1) m →
    ¬ (2 ^ 128 - 2 ^ 64 < phiSum (x / (prm (a + 1) * m)) a ∧ phiSum (x / (prm (a + 1) * m)) a ≤ 2 ^ 128)

/-- It is enough to consider all quotients. -/
theorem NoWindow.of_forall {x A : ℕ}
    (h : ∀ m a, 2 ≤ m → a < A → ¬ (2 ^ 128 - 2 ^ 64 < phiSum (x / m) a ∧ phiSum (x / m) a ≤ 2 ^ 128)) : NoWindow x A := by
  intro m a ha hr
  refine h _ a (le_trans (two_le_prm (a + 1)) (Nat.le_mul_of_pos_right _ ?_)) ha
  rcases Nat.eq_zero_or_pos m with rfl | hm
  · exact absurd (dvd_zero _) (hr 1 le_rfl (by omega))
  · exact hm

theorem NoWindow.div {x p A : ℕ} (h : NoWindow x A) (hr : Rough A p) : NoWindow (x / p) A := by
  intro m a ha hf
  rw [Nat.div_div_eq_div_mul, Nat.mul_left_comm]
  exact h (p * m) a ha (rough_mul.2 ⟨hr.anti (by omega), hf⟩)

theorem NoWindow.anti {x A B : ℕ} (h : NoWindow x A) (hb : B ≤ A) : NoWindow x B :=
  fun m a ha => h m a (by omega)

theorem phiSum256_ok {primes : Vec ℕ} {N : ℕ} (ht : PrimeTable primes N) (a : ℕ) :
    ∀ (a0 : ℕ) (sign : ℤ) (x : ℕ) (sum : I256), a ≤ a0 → a0 ≤ N → (sign = 1 ∨ sign = -1) → 1 ≤ x →
      x < 2 ^ 127 → NoWindow x a0 → sum.val = sign * ((phiSum x a0 : ℤ) - phiSum x a) →
      Ok (phiSum256 primes a sign x sum) (fun r => r.val = sign * phiSum x a0) := by
  induction a with
  | zero =>
    intro a0 sign x sum _ _ hs hx hx2 hw hsum
    unfold phiSum256
    have hb : (x : ℤ) * (x + 1) ≤ (2 ^ 127 - 1) * 2 ^ 127 :=
      mul_le_mul (by omega) (by omega) (by omega) (by omega)
    have hz' : (phiSum x 0 : ℤ) * 2 = x * (x + 1) := by exact_mod_cast phiSum_zero_mul_two x
    have h0 := phiSum_anti (x := x) (a := 0) (b := a0) (by omega)
    have v1 : (I256.ofInt x).val = x := I256.val_ofInt _ (by omega) (by omega)
    have v2 : (I256.add (I256.ofInt x) (I256.ofInt 1)).val = x + 1 := by
      rw [I256.C33_add_exact, v1, I256.val_ofInt _ (by norm_num) (by norm_num)]
      rw [v1, I256.val_ofInt _ (by norm_num) (by norm_num)]
      unfold I256.InRange; omega
    have v3 : (I256.mul (I256.ofInt x) (I256.add (I256.ofInt x) (I256.ofInt 1))).val = x * (x + 1) := by
      rw [I256.C34_mul_nonneg _ _ (by omega) (by omega), v1, v2, I256.wrap_of_inRange]
      unfold I256.InRange
      have : (0:ℤ) ≤ (x:ℤ) * (x + 1) := by positivity
      omega
    refine Ok.bind (I256.C37_shr_nonneg _ 1 (by omega) (by omega) (by rw [v3]; positivity))
      (fun fx hfx => Ok.ok ?_)
    have hfx' : fx.val = phiSum x 0 := by rw [hfx, v3]; norm_num; omega
    have hsv : (I256.ofInt sign).val = sign := by
      rcases hs with rfl | rfl <;> exact I256.val_ofInt _ (by norm_num) (by norm_num)
    have v4 : (I256.mul fx (I256.ofInt sign)).val = phiSum x 0 * sign := by
      rw [I256.C34_mul_partial, hfx', hsv, I256.wrap_of_inRange]
      · unfold I256.InRange
        rcases hs with rfl | rfl <;> omega
      · unfold I256.InWindow; omega
      · unfold I256.InWindow; rcases hs with rfl | rfl <;> omega
    rw [I256.C33_add, v4, hsum, I256.wrap_of_inRange]
    · ring
    · unfold I256.InRange
      rcases hs with rfl | rfl <;> omega
  | succ a ih =>
    intro a0 sign x sum ha ha0 hs hx hx2 hw hsum
    unfold phiSum256
    rw [ht.rd (by omega) (by omega)]
    simp only [ok_bind]
    have hb : (x : ℤ) * (x + 1) ≤ (2 ^ 127 - 1) * 2 ^ 127 :=
      mul_le_mul (by omega) (by omega) (by omega) (by omega)
    have hz' : (phiSum x 0 : ℤ) * 2 = x * (x + 1) := by exact_mod_cast phiSum_zero_mul_two x
    have m0 := phiSum_anti (x := x) (a := 0) (b := a0) (by omega)
    have m1 := phiSum_anti (x := x) (a := a + 1) (b := a0) (by omega)
    have m2 := phiSum_anti (x := x) (a := 0) (b := a) (by omega)
    have m3 := phiSum_anti (x := x) (a := a) (b := a + 1) (by omega)
    have hp2 := two_le_prm (a + 1)
    have hsv : (I256.ofInt sign).val = sign := by
      rcases hs with rfl | rfl <;> exact I256.val_ofInt _ (by norm_num) (by norm_num)
    refine Ok.ite (fun hle => Ok.ok ?_) (fun hlt => ?_)
    · have e1 : phiSum x (a + 1) = 1 := by
        apply phiSum_eq_one hx
        have := prm_lt_prm (i := a + 1) (j := a + 1 + 1) (by omega) (by omega)
        omega
      have e2 : phiSum x a0 = 1 := by
        have := phiSum_pos (x := x) (a := a0) hx
        omega
      rw [I256.C33_add, hsv, hsum, e1, e2, I256.wrap_of_inRange]
      · simp
      · unfold I256.InRange
        rcases hs with rfl | rfl <;> omega
    · rw [cdiv_ok (by omega)]
      simp only [ok_bind]
      have hx2' : 1 ≤ x / prm (a + 1) := by
        rw [Nat.le_div_iff_mul_le (by omega)]; omega
      have hx2l : x / prm (a + 1) < 2 ^ 127 := lt_of_le_of_lt (Nat.div_le_self _ _) hx2
      have hle := prm_mul_phiSum_le x a
      have hle2 : phiSum (x / prm (a + 1)) a ≤ phiSum x a := by nlinarith
      have hw2 := hw 1 a (by omega) (rough_one _)
      rw [Nat.mul_one] at hw2
      have hrec : Ok (if x / prm (a + 1) ≤ 2 ^ 63 - 1 then do
            let r ← phiSum128 primes a (-sign) (x / prm (a + 1)) 0
            pure (I256.ofInt r)
          else phiSum256 primes a (-sign) (x / prm (a + 1)) (I256.ofInt 0))
          (fun r => r.val = -sign * phiSum (x / prm (a + 1)) a) := by
        refine Ok.ite (fun h63 => ?_) (fun h63 => ?_)
        · rw [phiSum128_ok ht a a (-sign) (x / prm (a + 1)) 0 le_rfl (by omega)
            (by rcases hs with rfl | rfl <;> simp) hx2' (by omega) (by simp)]
          refine Ok.ok ?_
          have hb2 : ((x / prm (a + 1) : ℕ) : ℤ) * ((x / prm (a + 1) : ℕ) + 1) ≤ (2 ^ 63 - 1) * 2 ^ 63 :=
            mul_le_mul (by omega) (by omega) (by omega) (by omega)
          have hle3 : (phiSum (x / prm (a + 1)) a : ℤ) * 2 ≤
              ((x / prm (a + 1) : ℕ) : ℤ) * ((x / prm (a + 1) : ℕ) + 1) := by
            exact_mod_cast phiSum_le (x / prm (a + 1)) a
          generalize x / prm (a + 1) = q at *
          apply I256.val_ofInt
          · rcases hs with rfl | rfl <;> omega
          · rcases hs with rfl | rfl <;> omega
        · exact ih a (-sign) (x / prm (a + 1)) (I256.ofInt 0) le_rfl (by omega)
            (by rcases hs with rfl | rfl <;> simp) hx2' hx2l ((hw.anti (by omega)).div ((rough_prm (by omega)).2 (by omega)))
            (by rw [I256.val_ofInt _ (by norm_num) (by norm_num)]; simp)
      refine Ok.bind hrec (fun r hr => ?_)
      have hs' : (phiSum x a : ℤ) = phiSum x (a + 1) + prm (a + 1) * phiSum (x / prm (a + 1)) a := by
        exact_mod_cast phiSum_succ x a
      have hpv : (I256.ofInt (prm (a + 1))).val = prm (a + 1) := by
        apply I256.val_ofInt <;> omega
      have hmul : (I256.mul r (I256.ofInt (prm (a + 1)))).val =
          -sign * ((phiSum x a : ℤ) - phiSum x (a + 1)) := by
        rw [I256.C34_mul_partial, hr, hpv, I256.wrap_of_inRange]
        · rw [hs']; ring
        · have : -sign * (phiSum (x / prm (a + 1)) a : ℤ) * (prm (a + 1) : ℤ) =
            -sign * ((phiSum x a : ℤ) - phiSum x (a + 1)) := by rw [hs']; ring
          rw [this]
          unfold I256.InRange
          rcases hs with rfl | rfl <;> omega
        · unfold I256.InWindow
          rw [hr]
          rcases hs with rfl | rfl <;> omega
        · unfold I256.InWindow
          omega
      apply ih a0 sign x _ (by omega) ha0 hs hx hx2 hw
      rw [I256.C33_add, hmul, hsum, I256.wrap_of_inRange]
      · ring
      · unfold I256.InRange
        rcases hs with rfl | rfl <;> omega

theorem phiSum64_ok (x a : ℕ) (hx : x < 2 ^ 63) (ha : prm a < 2 ^ 31) : phiSum64 x a = .ok (phiSum x a : ℤ) := by
  unfold phiSum64
  split
  · rename_i h
    have : x = 0 := by omega
    subst this
    simp [phiSum]
  · split
    · rw [phiSum128_ok smallPrimes_table a a 1 x 0 le_rfl (by omega) (Or.inl rfl) (by omega) hx
        (by simp)]
      simp
    · rw [generateNPrimesT_eq ha, ok_bind, phiSum128_ok (generateNPrimes_table a) a a 1 x 0 le_rfl le_rfl (Or.inl rfl) (by omega) hx
        (by simp)]
      simp

theorem phiSumM_ok (x a : ℕ) (hx : x < 2 ^ 127) (ha : prm a < 2 ^ 31) (hw : NoWindow x a) :
    Ok (phiSumM x a) (fun r => r.val = phiSum x a) := by
  unfold phiSumM
  refine Ok.ite (fun h => ?_) (fun h => ?_)
  · rw [phiSum64_ok x a (by omega) ha]
    refine Ok.ok ?_
    have hb : (x : ℤ) * (x + 1) ≤ (2 ^ 63 - 1) * 2 ^ 63 :=
      mul_le_mul (by omega) (by omega) (by omega) (by omega)
    have hle3 := phiSum_le x a
    zify at hle3
    exact I256.val_ofInt _ (by omega) (by omega)
  · have v0 : (I256.ofInt 0).val = 0 := by decide
    refine Ok.ite (fun h10 => ?_) (fun h10 => ?_)
    · refine (phiSum256_ok smallPrimes_table a a 1 x (I256.ofInt 0) le_rfl (by omega) (Or.inl rfl)
        (by omega) hx hw (by rw [v0]; simp)).mono (fun r hr => by simpa using hr)
    · rw [generateNPrimesT_eq ha, ok_bind]
      refine (phiSum256_ok (generateNPrimes_table a) a a 1 x (I256.ofInt 0) le_rfl le_rfl (Or.inl rfl)
        (by omega) hx hw (by rw [v0]; simp)).mono (fun r hr => by simpa using hr)

/-- The least argument for which the multiplication bug matters. -/
def badK : ℕ := 26087635650665564424

theorem noWindow_of_lt {x : ℕ} (A : ℕ) (h : x < 2 * badK) : NoWindow x A := by
  refine .of_forall (fun m a hm _ hc => ?_)
  have h1 : x / m ≤ badK - 1 := by
    have : x / m ≤ x / 2 := Nat.div_le_div_left hm (by omega)
    unfold badK at *
    omega
  have h2 := phiSum_le (x / m) a
  have h3 : (x / m) * (x / m + 1) ≤ (badK - 1) * badK := Nat.mul_le_mul h1 (by unfold badK at *; omega)
  have h4 : (badK - 1) * badK ≤ 2 * (2 ^ 128 - 2 ^ 64) := by unfold badK; norm_num
  omega

end PS
