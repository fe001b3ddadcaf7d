import Verif.Proof.BRes

/-!
# The low bits of a 256-bit value

The multiplication of `int256_t` is wrong for some operands, but its low 128 bits are not (`C34_mul_mod128`).  The sums of a
sieved word are computed modulo `2^64` (BitSieve.hpp:140-230), so from `2^60` on only the low 64 bits of what is made of them
are right.
-/

namespace PS

namespace I256

variable {k : ℕ}

theorem dvd_of_dvd_wrap (hk : k ≤ 128) {a b : ℤ} (h : (2 ^ k : ℤ) ∣ a - b) : (2 ^ k : ℤ) ∣ wrap a - b := by
  have h2 : (2 ^ 256 : ℤ) ∣ wrap a - a := by
    apply Int.dvd_of_emod_eq_zero
    have := wrap_emod a
    omega
  have h3 := dvd_add (Dvd.dvd.trans (pow_dvd_pow 2 (show k ≤ 256 by omega)) h2) h
  rwa [sub_add_sub_cancel] at h3

theorem dvd_add_sub {m a b x y : ℤ} (h1 : m ∣ a - x) (h2 : m ∣ b - y) : m ∣ a + b - (x + y) := by
  rw [show a + b - (x + y) = a - x + (b - y) by ring]
  exact dvd_add h1 h2

theorem low_add (hk : k ≤ 128) {a b : I256} {x y : ℤ} (h1 : (2 ^ k : ℤ) ∣ a.val - x) (h2 : (2 ^ k : ℤ) ∣ b.val - y) :
    (2 ^ k : ℤ) ∣ (add a b).val - (x + y) := by
  rw [C33_add]
  exact dvd_of_dvd_wrap hk (dvd_add_sub h1 h2)

theorem low_sub (hk : k ≤ 128) {a b : I256} {x y : ℤ} (h1 : (2 ^ k : ℤ) ∣ a.val - x) (h2 : (2 ^ k : ℤ) ∣ b.val - y) :
    (2 ^ k : ℤ) ∣ (sub a b).val - (x - y) := by
  rw [C33_sub]
  refine dvd_of_dvd_wrap hk ?_
  rw [show a.val - b.val - (x - y) = a.val - x - (b.val - y) by ring]
  exact dvd_sub h1 h2

theorem low_mul (hk : k ≤ 128) {a b : I256} {x y : ℤ} (h1 : (2 ^ k : ℤ) ∣ a.val - x) (h2 : (2 ^ k : ℤ) ∣ b.val - y) :
    (2 ^ k : ℤ) ∣ (mul a b).val - x * y := by
  have h3 := Dvd.dvd.trans (pow_dvd_pow (2 : ℤ) hk) (C34_mul_mod128 a b)
  rw [show (mul a b).val - x * y = (mul a b).val - a.val * b.val + ((a.val - x) * b.val + x * (b.val - y)) by ring]
  exact dvd_add h3 (dvd_add (Dvd.dvd.mul_right h1 _) (Dvd.dvd.mul_left h2 _))

theorem low_of_eq {a : I256} {x : ℤ} (h : a.val = x) : (2 ^ k : ℤ) ∣ a.val - x := by
  rw [h, sub_self]; exact dvd_zero _

end I256

open I256

/-- `phi_sum256`: right in the low 128 bits for all arguments. -/
theorem phiSum256_low {primes : Vec ℕ} {N : ℕ} (ht : PrimeTable primes N) (a : ℕ) :
    ∀ (a0 : ℕ) (sign : ℤ) (x : ℕ) (sum : I256), a ≤ a0 → a0 ≤ N → (sign = 1 ∨ sign = -1) → 1 ≤ x →
      x < 2 ^ 127 → (2 ^ 128 : ℤ) ∣ sum.val - sign * ((phiSum x a0 : ℤ) - phiSum x a) →
      Ok (phiSum256 primes a sign x sum) (fun r => (2 ^ 128 : ℤ) ∣ r.val - sign * phiSum x a0) := by
  induction a with
  | zero =>
    intro a0 sign x sum _ _ hs hx hx2 hsum
    unfold phiSum256
    have hb : (x : ℤ) * (x + 1) ≤ (2 ^ 127 - 1) * 2 ^ 127 :=
      mul_le_mul (by omega) (by omega) (by omega) (by omega)
    have hz' : (phiSum x 0 : ℤ) * 2 = x * (x + 1) := by exact_mod_cast phiSum_zero_mul_two x
    have v1 : (I256.ofInt x).val = x := I256.val_ofInt _ (by omega) (by omega)
    have v2 : (I256.add (I256.ofInt x) (I256.ofInt 1)).val = x + 1 := by
      rw [I256.C33_add_exact, v1, I256.val_ofInt _ (by norm_num) (by norm_num)]
      rw [v1, I256.val_ofInt _ (by norm_num) (by norm_num)]
      unfold I256.InRange; omega
    have v3 : (I256.mul (I256.ofInt x) (I256.add (I256.ofInt x) (I256.ofInt 1))).val = x * (x + 1) := by
      rw [I256.C34_mul_nonneg _ _ (by omega) (by omega), v1, v2, I256.wrap_of_inRange]
      unfold I256.InRange
      have : (0:ℤ) ≤ (x:ℤ) * (x + 1) := by positivity
      omega
    refine Ok.bind (I256.C37_shr_nonneg _ 1 (by omega) (by omega) (by rw [v3]; positivity))
      (fun fx hfx => Ok.ok ?_)
    have hfx' : fx.val = phiSum x 0 := by rw [hfx, v3]; norm_num; omega
    have hsv : (I256.ofInt sign).val = sign := by
      rcases hs with rfl | rfl <;> exact I256.val_ofInt _ (by norm_num) (by norm_num)
    have := low_add le_rfl hsum (low_mul le_rfl (low_of_eq hfx') (low_of_eq hsv))
    rwa [show sign * ((phiSum x a0 : ℤ) - phiSum x 0) + phiSum x 0 * sign = sign * phiSum x a0 by ring] at this
  | succ a ih =>
    intro a0 sign x sum ha ha0 hs hx hx2 hsum
    unfold phiSum256
    rw [ht.rd (by omega) (by omega)]
    simp only [ok_bind]
    have m1 := phiSum_anti (x := x) (a := a + 1) (b := a0) (by omega)
    have hp2 := two_le_prm (a + 1)
    have hsv : (I256.ofInt sign).val = sign := by
      rcases hs with rfl | rfl <;> exact I256.val_ofInt _ (by norm_num) (by norm_num)
    refine Ok.ite (fun hle => Ok.ok ?_) (fun hlt => ?_)
    · have e1 : phiSum x (a + 1) = 1 := by
        apply phiSum_eq_one hx
        have := prm_lt_prm (i := a + 1) (j := a + 1 + 1) (by omega) (by omega)
        omega
      have e2 : phiSum x a0 = 1 := by
        have := phiSum_pos (x := x) (a := a0) hx
        omega
      have := low_add le_rfl hsum (low_of_eq hsv)
      rw [e1, e2] at this
      rw [e2]
      simpa using this
    · rw [cdiv_ok (by omega)]
      simp only [ok_bind]
      have hx2' : 1 ≤ x / prm (a + 1) := by
        rw [Nat.le_div_iff_mul_le (by omega)]; omega
      have hx2l : x / prm (a + 1) < 2 ^ 127 := lt_of_le_of_lt (Nat.div_le_self _ _) hx2
      have v0 : (I256.ofInt 0).val = 0 := by decide
      have hrec : Ok (if x / prm (a + 1) ≤ 2 ^ 63 - 1 then do
            let r ← phiSum128 primes a (-sign) (x / prm (a + 1)) 0
            pure (I256.ofInt r)
          else phiSum256 primes a (-sign) (x / prm (a + 1)) (I256.ofInt 0))
          (fun r => (2 ^ 128 : ℤ) ∣ r.val - -sign * phiSum (x / prm (a + 1)) a) := by
        refine Ok.ite (fun h63 => ?_) (fun h63 => ?_)
        · rw [phiSum128_ok ht a a (-sign) (x / prm (a + 1)) 0 le_rfl (by omega) (by omega) hx2' (by omega) (by simp)]
          refine Ok.ok (low_of_eq ?_)
          have h1 := phiSum_le (x / prm (a + 1)) a
          have h2 : (x / prm (a + 1)) * (x / prm (a + 1) + 1) ≤ 2 ^ 63 * 2 ^ 63 := Nat.mul_le_mul (by omega) (by omega)
          refine I256.val_ofInt _ ?_ ?_ <;> rcases hs with rfl | rfl <;> omega
        · exact ih a (-sign) (x / prm (a + 1)) (I256.ofInt 0) le_rfl (by omega) (by omega) hx2' hx2l (by rw [v0]; simp)
      refine Ok.bind hrec (fun r hr => ?_)
      have hpx : prm (a + 1) < 2 ^ 127 := by omega
      have hpv : (I256.ofInt (prm (a + 1))).val = prm (a + 1) := I256.val_ofInt _ (by omega) (by omega)
      have hn := low_add le_rfl hsum (low_mul le_rfl hr (low_of_eq hpv))
      refine ih a0 sign x _ (by omega) ha0 hs hx hx2 ?_
      have he : (phiSum x a : ℤ) = phiSum x (a + 1) + prm (a + 1) * phiSum (x / prm (a + 1)) a := by
        exact_mod_cast phiSum_succ x a
      rwa [show sign * ((phiSum x a0 : ℤ) - phiSum x (a + 1)) + -sign * phiSum (x / prm (a + 1)) a * prm (a + 1) =
        sign * ((phiSum x a0 : ℤ) - phiSum x a) by rw [he]; ring] at hn

/-- `phi_sum(x, a)`: right in the low 128 bits for all arguments. -/
theorem phiSumM_low (x a : ℕ) (hx : x < 2 ^ 127) (ha : prm a < 2 ^ 31) :
    Ok (phiSumM x a) (fun r => (2 ^ 128 : ℤ) ∣ r.val - phiSum x a) := by
  unfold phiSumM
  refine Ok.ite (fun h => ?_) (fun h => ?_)
  · rw [phiSum64_ok x a (by omega) ha]
    refine Ok.ok (low_of_eq ?_)
    have hb : (x : ℤ) * (x + 1) ≤ (2 ^ 63 - 1) * 2 ^ 63 :=
      mul_le_mul (by omega) (by omega) (by omega) (by omega)
    have hle3 := phiSum_le x a
    zify at hle3
    exact I256.val_ofInt _ (by omega) (by omega)
  · have v0 : (I256.ofInt 0).val = 0 := by decide
    refine Ok.ite (fun h10 => ?_) (fun h10 => ?_)
    · refine (phiSum256_low smallPrimes_table a a 1 x (I256.ofInt 0) le_rfl (by omega) (Or.inl rfl)
        (by omega) hx (by rw [v0]; simp)).mono (fun r hr => by simpa using hr)
    · rw [generateNPrimesT_eq ha, ok_bind]
      refine (phiSum256_low (generateNPrimes_table a) a a 1 x (I256.ofInt 0) le_rfl le_rfl (Or.inl rfl)
        (by omega) hx (by rw [v0]; simp)).mono (fun r hr => by simpa using hr)

/-- `r` agrees with the integer modulo `2^k`. -/
def BRes.low (k : ℕ) (hk : k ≤ 128) : BRes I256 where
  Rep r z _ := (2 ^ k : ℤ) ∣ r.val - z
  PhiOk x c := x < 2 ^ 127 ∧ prm c < 2 ^ 31
  Lim _ := True
  mod := 2 ^ k
  rep_near z z' h1 h2 h3 := by
    show (2 ^ k : ℤ) ∣ (I256.ofInt z).val - z'
    rw [I256.val_ofInt z h1 (by omega)]
    exact h3
  rep_add _ _ _ _ _ _ h1 h2 := low_add hk h1 h2
  rep_sub _ _ _ _ _ _ h1 h2 := low_sub hk h1 h2
  rep_mul _ _ _ _ _ _ h1 h2 _ _ _ _ _ _ := low_mul hk h1 h2
  rep_phi x c h := (phiSumM_low x c h.1 h.2).mono (fun r hr => Dvd.dvd.trans (pow_dvd_pow 2 hk) hr)
  phiOk_div x c m _ _ h := ⟨lt_of_le_of_lt (Nat.div_le_self _ _) h.1, h.2⟩
  phiOk_anti x c c' hc h := ⟨h.1, lt_of_le_of_lt (prm_le_prm hc) h.2⟩
  phiOk_lt x c h := h.1
  phiOk_lim _ _ _ := trivial
  lim_small _ _ := trivial

end PS
