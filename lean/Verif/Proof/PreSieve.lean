import Verif.Proof.BitSieve

/-! `BitSieve::pre_sieve`. -/

namespace PS
namespace BitSieve

/-- `low + 2k` is not divisible by the primes of index `2 ≤ j < i`. -/
def Pat (i low k : ℕ) : Prop := ∀ j, 2 ≤ j → j < i → ¬ primes.get j ∣ low + 2 * k

/-- The first `n` words are pre-sieved by the primes of index `2 ≤ j < i`. -/
def Good (i low n : ℕ) (v : Vec (BitVec 64)) : Prop := ∀ k, k < 64 * n → (vbit v k = true ↔ Pat i low k)

theorem primes_facts : ∀ i, i < 10 → 2 ≤ i → primes.get i % 2 = 1 ∧ 3 ≤ primes.get i ∧ primes.get i ≤ 23 ∧
    64 % primes.get i ≠ 0 ∧ (∀ b, b < 64 → (masks.get i).getLsbD b = decide (b % primes.get i = 0)) := by
  decide +kernel

theorem copy_ok {v : Vec (BitVec 64)} {n dst : ℕ} (h1 : n ≤ dst) (h2 : dst + n ≤ v.size) :
    Ok (copy v n dst) (fun v' => v'.size = v.size ∧ ∀ k, v'.get k =
      if dst ≤ k ∧ k < dst + n then v.get (k - dst) else v.get k) := by
  unfold copy
  refine forUp_ok (fun i (w : Vec (BitVec 64)) => w.size = v.size ∧ ∀ k, w.get k =
      if dst ≤ k ∧ k < dst + i then v.get (k - dst) else v.get k) ⟨rfl, fun k => ?_⟩ (Nat.zero_le _)
    (fun i w h3 h4 h5 => ?_)
  · rw [if_neg (by omega)]
  · rw [Vec.rd_ok (by omega)]
    simp only [ok_bind]
    rw [Vec.wr_ok (by omega)]
    refine Ok.ok ⟨by simpa using h5.1, fun k => ?_⟩
    rw [Vec.get_set]
    by_cases hk : dst + i = k
    · subst hk
      rw [if_pos ⟨rfl, by omega⟩, if_pos ⟨by omega, by omega⟩, h5.2 i, if_neg (by omega)]
      congr 1; omega
    · rw [if_neg (fun h => hk h.1), h5.2 k]
      by_cases hc : dst ≤ k ∧ k < dst + i
      · rw [if_pos hc, if_pos ⟨hc.1, by omega⟩]
      · rw [if_neg hc, if_neg (by omega)]

theorem Pat_shift {i low k n : ℕ} (h : ∀ j, 2 ≤ j → j < i → primes.get j ∣ n) (hk : 64 * n ≤ k) :
    Pat i low (k - 64 * n) ↔ Pat i low k := by
  have : ∀ j, 2 ≤ j → j < i → (primes.get j ∣ low + 2 * (k - 64 * n) ↔ primes.get j ∣ low + 2 * k) := by
    intro j h1 h2
    rw [show low + 2 * k = low + 2 * (k - 64 * n) + 128 * n by omega]
    exact (Nat.dvd_add_left (Dvd.dvd.mul_left (h j h1 h2) 128)).symm
  constructor
  · intro hp j h1 h2; rw [← this j h1 h2]; exact hp j h1 h2
  · intro hp j h1 h2; rw [this j h1 h2]; exact hp j h1 h2

theorem copyLoop_ok {i low sieved stop size : ℕ} {v : Vec (BitVec 64)} (hv : v.size = size) (h1 : 1 ≤ sieved)
    (hss : sieved ≤ stop) (hst : stop ≤ size) (hdv : sieved ∣ stop ∨ stop = size)
    (hp : (∀ j, 2 ≤ j → j < i → primes.get j ∣ sieved) ∨ sieved = size) (hg : Good i low sieved v) :
    Ok (copyLoop sieved stop size v sieved) (fun r => r.2 = stop ∧ r.1.size = size ∧ Good i low stop r.1) := by
  unfold copyLoop
  refine loop_ok (fun ((w, last) : Vec (BitVec 64) × ℕ) => w.size = size ∧ sieved ≤ last ∧ last ≤ stop ∧
      (sieved ∣ last ∨ last = size) ∧ Good i low last w)
    (fun (s : Vec (BitVec 64) × ℕ) => stop - s.2) _ ⟨hv, le_refl _, hss, Or.inl dvd_rfl, hg⟩ ?_ ?_
  · show stop - sieved < stop + 1
    omega
  · rintro ⟨w, last⟩ ⟨g1, g2, g3, g4, g5⟩
    dsimp only
    refine Ok.ite (fun hc => ?_) (fun hc => ?_)
    · have hdl : sieved ∣ last := by rcases g4 with h | h; · exact h
                                     · omega
      have hpp : ∀ j, 2 ≤ j → j < i → primes.get j ∣ last := by
        rcases hp with h | h
        · exact fun j h2 h3 => dvd_trans (h j h2 h3) hdl
        · omega
      refine Ok.bind (copy_ok (v := w) (n := min sieved (size - last)) (dst := last) (by omega) (by omega))
        (fun w' hw' => Ok.pure ⟨⟨by rw [hw'.1, g1], by omega, ?_, ?_, ?_⟩, ?_⟩)
      · rcases hdv with h | h
        · obtain ⟨a, ha⟩ := hdl
          obtain ⟨b, hb⟩ := h
          have hab : a < b := by
            by_contra hcc
            have : sieved * b ≤ sieved * a := Nat.mul_le_mul_left _ (by omega)
            omega
          have : sieved * (a + 1) ≤ sieved * b := Nat.mul_le_mul_left _ (by omega)
          rw [Nat.mul_add] at this
          omega
        · omega
      · by_cases hm : sieved ≤ size - last
        · left
          rw [Nat.min_eq_left hm]
          exact Dvd.dvd.add hdl dvd_rfl
        · right
          omega
      · intro k hk
        have hvb : vbit w' k = if 64 * last ≤ k then vbit w (k - 64 * last) else vbit w k := by
          unfold vbit
          rw [hw'.2]
          by_cases hc2 : 64 * last ≤ k
          · rw [if_pos hc2, if_pos ⟨by omega, by omega⟩]
            rw [show (k - 64 * last) / 64 = k / 64 - last by omega, show (k - 64 * last) % 64 = k % 64 by omega]
          · rw [if_neg hc2, if_neg (by omega)]
        rw [hvb]
        by_cases hc2 : 64 * last ≤ k
        · rw [if_pos hc2, g5 _ (by omega)]
          exact Pat_shift hpp hc2
        · rw [if_neg hc2]
          exact g5 k (by omega)
      · show stop - (last + min sieved (size - last)) < stop - last
        omega
    · have : last = stop := by omega
      subst this
      exact Ok.pure ⟨rfl, g1, g5⟩

theorem preSievePrime_ok {i low last : ℕ} {v : Vec (BitVec 64)} (h64 : low + 46 ≤ 2 ^ 64) (h2 : 2 ≤ i) (h10 : i < 10) (hodd : low % 2 = 1)
    (hl : last ≤ v.size) (hg : Good i low last v) :
    Ok (preSievePrime i low last v) (fun v' => v'.size = v.size ∧ Good (i + 1) low last v') := by
  obtain ⟨f1, f2, f3, f4, f5⟩ := primes_facts i h10 h2
  unfold preSievePrime
  rw [Vec.rd_ok (show i < primes.size from h10)]
  simp only [ok_bind]
  generalize hp : primes.get i = p at *
  rw [fit_ok (by omega), ok_bind, ceilDiv_ok _ _ (by omega)]
  simp only [ok_bind]
  have hq1 : low ≤ (low + p - 1) / p * p := by
    have := Nat.div_add_mod (low + p - 1) p
    have h3 := Nat.mod_lt (low + p - 1) (show p > 0 by omega)
    rw [Nat.mul_comm]
    omega
  have hq2 : (low + p - 1) / p * p ≤ low + p - 1 := Nat.div_mul_le_self _ _
  have hqd : p ∣ (low + p - 1) / p * p := Dvd.intro_left _ rfl
  generalize (low + p - 1) / p * p = q at *
  have hM : ∃ M, q + p * (if q % 2 = 0 then 1 else 0) = M ∧ M % 2 = 1 ∧ p ∣ M ∧ low ≤ M ∧ M < low + 2 * p := by
    by_cases hc : q % 2 = 0
    · rw [if_pos hc, Nat.mul_one]
      exact ⟨q + p, rfl, by omega, Dvd.dvd.add hqd dvd_rfl, by omega, by omega⟩
    · rw [if_neg hc, Nat.mul_zero, Nat.add_zero]
      exact ⟨q, rfl, by omega, hqd, hq1, by omega⟩
  obtain ⟨M, hM0, hM1, hM2, hM3, hM4⟩ := hM
  rw [fit_ok (by omega), ok_bind, hM0, fit_ok (by omega), ok_bind]
  have h64 := Nat.mod_lt 64 (show p > 0 by omega)
  rw [csub_ok (by omega)]
  simp only [ok_bind]
  rw [Vec.rd_ok (show i < masks.size from h10)]
  simp only [ok_bind]
  rw [csub_ok hM3]
  simp only [ok_bind]
  have key : ∀ k, p ∣ low + 2 * k ↔ ((k : ℤ) - ((M - low) / 2 : ℕ)) % p = 0 := by
    intro k
    have hcop : IsCoprime (p : ℤ) 2 := by
      rw [Int.isCoprime_iff_gcd_eq_one]
      rw [Int.gcd_eq_natAbs]
      have : Nat.Coprime p 2 := by
        rw [Nat.coprime_two_right]; exact Nat.odd_iff.2 f1
      simpa using this
    rw [← Int.natCast_dvd_natCast, ← Int.dvd_iff_emod_eq_zero]
    have he : ((low + 2 * k : ℕ) : ℤ) = M + 2 * ((k : ℤ) - ((M - low) / 2 : ℕ)) := by
      push_cast
      omega
    rw [he, dvd_add_right (Int.natCast_dvd_natCast.2 hM2)]
    exact ⟨fun h => hcop.dvd_of_dvd_mul_left h, fun h => Dvd.dvd.mul_left h 2⟩
  set s0 := (M - low) / 2 with hs0
  have hs0p : s0 < p := by omega
  clear_value s0
  refine Ok.bind (forUp_ok (fun j (r : Vec (BitVec 64) × ℕ) => r.1.size = v.size ∧ r.2 < p ∧
      ((r.2 : ℤ) + 64 * j - s0) % p = 0 ∧ (∀ k, 64 * j ≤ k → vbit r.1 k = vbit v k) ∧
      Good (i + 1) low j r.1) ⟨rfl, hs0p, by simp, fun k _ => rfl, fun k hk => by omega⟩ (Nat.zero_le _)
    (fun j r h3 h4 hr => ?_)) (fun r hr => Ok.pure ⟨hr.1, hr.2.2.2.2⟩)
  obtain ⟨w, shift⟩ := r
  obtain ⟨r1, r2, r3, r4, r5⟩ := hr
  dsimp only at r1 r2 r3 r4 r5 ⊢
  rw [Vec.rd_ok (by omega)]
  simp only [ok_bind]
  rw [if_pos (by omega)]
  simp only [ok_bind]
  rw [Vec.wr_ok (by omega)]
  simp only [ok_bind]
  have hfm : fastModulo (shift + (p - 64 % p)) p < p ∧
      ((fastModulo (shift + (p - 64 % p)) p : ℤ) - (shift - 64)) % p = 0 := by
    unfold fastModulo
    have hd : (64 : ℤ) = p * (64 / p : ℕ) + (64 % p : ℕ) := by exact_mod_cast (Nat.div_add_mod 64 p).symm
    by_cases hc : shift + (p - 64 % p) < p
    · rw [if_pos hc]
      refine ⟨hc, Int.emod_eq_zero_of_dvd ⟨1 + (64 / p : ℕ), ?_⟩⟩
      rw [Nat.cast_add, Nat.cast_sub (by omega)]
      linear_combination hd
    · rw [if_neg hc]
      refine ⟨by omega, Int.emod_eq_zero_of_dvd ⟨(64 / p : ℕ), ?_⟩⟩
      rw [Nat.cast_sub (by omega), Nat.cast_add, Nat.cast_sub (by omega)]
      linear_combination hd
  have hbit : ∀ k, vbit (w.set j (w.get j &&& ~~~ (masks.get i <<< shift))) k =
      if k / 64 = j then (vbit w k && !decide (p ∣ low + 2 * k)) else vbit w k := by
    intro k
    unfold vbit
    rw [Vec.get_set]
    by_cases hj : j = k / 64
    · rw [if_pos ⟨hj, by omega⟩, if_pos hj.symm, ← hj, BitVec.getLsbD_and, BitVec.getLsbD_not, BitVec.getLsbD_shiftLeft]
      have hk64 : k % 64 < 64 := Nat.mod_lt _ (by norm_num)
      have hiff : (!decide (k % 64 < shift) && (masks.get i).getLsbD (k % 64 - shift)) = decide (p ∣ low + 2 * k) := by
        rw [f5 _ (by omega), Bool.eq_iff_iff, Bool.and_eq_true, Bool.not_eq_true', decide_eq_false_iff_not,
          decide_eq_true_iff, decide_eq_true_iff, key k, ← Int.dvd_iff_emod_eq_zero]
        rw [← Int.dvd_iff_emod_eq_zero] at r3
        have hk : (k : ℤ) - s0 = ((k % 64 : ℕ) : ℤ) - shift + (shift + 64 * j - s0) := by
          have : k = 64 * j + k % 64 := by omega
          omega
        rw [hk, dvd_add_left r3]
        constructor
        · rintro ⟨a1, a2⟩
          rw [← Nat.cast_sub (by omega), Int.natCast_dvd_natCast]
          exact Nat.dvd_of_mod_eq_zero a2
        · intro hdv
          have hge : shift ≤ k % 64 := by
            by_contra hcc
            obtain ⟨e, he⟩ := hdv
            have h5 : (p : ℤ) * e < 0 := by omega
            have h6 : -(p : ℤ) < p * e := by omega
            have h7 : e < 0 := by
              by_contra h8
              have : 0 ≤ (p : ℤ) * e := mul_nonneg (by omega) (by omega)
              omega
            nlinarith
          refine ⟨by omega, ?_⟩
          rw [← Nat.cast_sub hge, Int.natCast_dvd_natCast] at hdv
          exact Nat.mod_eq_zero_of_dvd hdv
      rw [← hiff]
      simp [hk64]
    · rw [if_neg (fun h => hj h.1), if_neg (fun h => hj h.symm)]
  refine Ok.pure ⟨by simpa using r1, hfm.1, ?_, fun k hk => ?_, fun k hk => ?_⟩
  · have h5 := hfm.2
    dsimp only
    rw [← Int.dvd_iff_emod_eq_zero] at h5 r3 ⊢
    have := Dvd.dvd.add h5 r3
    refine (dvd_of_eq rfl).trans ?_
    convert this using 1
    push_cast
    ring
  · dsimp only
    rw [hbit k, if_neg (by omega)]
    exact r4 k (by omega)
  · dsimp only
    rw [hbit k]
    by_cases hj : k / 64 = j
    · rw [if_pos hj, r4 k (by omega), Bool.and_eq_true, hg k (by omega), Bool.not_eq_true', decide_eq_false_iff_not]
      constructor
      · rintro ⟨a1, a2⟩ j' b1 b2
        rcases Nat.lt_or_ge j' i with h | h
        · exact a1 j' b1 h
        · have : j' = i := by omega
          subst this
          rw [hp]; exact a2
      · intro hP
        exact ⟨fun j' b1 b2 => hP j' b1 (by omega), by rw [← hp]; exact hP i h2 (by omega)⟩
    · rw [if_neg hj]
      exact r5 k (by omega)

theorem preSieve_ok {b : BitSieve} {c low : ℕ} (h64 : low + 46 ≤ 2 ^ 64) (hc : c < 10) (hodd : low % 2 = 1) :
    Ok (preSieve b c low) (fun b' => b'.size = b.size ∧ b'.sieve.size = b.sieve.size ∧
      ∀ k, k < 64 * b.sieve.size → (bit b' k = true ↔ ∀ j, 2 ≤ j → j ≤ c → ¬ primes.get j ∣ low + 2 * k)) := by
  unfold preSieve
  refine Ok.ite (fun h => Ok.pure ⟨rfl, rfl, fun k hk => by omega⟩) (fun h => ?_)
  rw [Vec.wr_ok (by omega)]
  simp only [ok_bind]
  have hsz : (b.sieve.set 0 (~~~ 0#64)).size = b.sieve.size := by simp
  rw [hsz]
  refine Ok.bind (forUp_ok' (fun i (r : Vec (BitVec 64) × ℕ) => r.1.size = b.sieve.size ∧ 1 ≤ r.2 ∧ r.2 ≤ b.sieve.size ∧
    ((∀ j, 2 ≤ j → j < i → primes.get j ∣ r.2) ∨ r.2 = b.sieve.size) ∧ Good i low r.2 r.1) ?_ ?_) ?_
  · refine ⟨by simp, le_refl _, by dsimp only; omega, Or.inl (fun j h1 h2 => by omega), fun k hk => ?_⟩
    have : vbit (b.sieve.set 0 (~~~ 0#64)) k = true := by
      unfold vbit
      have hk0 : k / 64 = 0 := by omega
      rw [hk0, Vec.get_set_self _ _ _ (by omega), BitVec.getLsbD_not]
      have : k % 64 < 64 := Nat.mod_lt _ (by norm_num)
      simp [this]
    rw [this]
    simp only [true_iff]
    intro j h1 h2
    omega
  · rintro i ⟨v, sieved⟩ h1 h2 ⟨r1, r2, r3, r4, r5⟩
    dsimp only at r1 r2 r3 r4 r5 ⊢
    rw [Vec.rd_ok (show i < primes.size from by show i < 10; omega)]
    simp only [ok_bind]
    obtain ⟨f1, f2, f3, -⟩ := primes_facts i (by omega) h1
    have hsp : sieved ≤ sieved * primes.get i := Nat.le_mul_of_pos_right _ (by omega)
    refine Ok.bind (copyLoop_ok r1 r2 (by omega) (by omega) ?_ r4 r5) ?_
    · by_cases hm : sieved * primes.get i ≤ b.sieve.size
      · left; rw [Nat.min_eq_left hm]; exact Dvd.intro _ rfl
      · right; omega
    · rintro ⟨w, last⟩ ⟨a1, a2, a3⟩
      dsimp only at a1 a2 a3 ⊢
      rw [← a1] at a3
      refine Ok.bind (preSievePrime_ok h64 h1 (by omega) hodd (by omega) a3) (fun w' hw' => Ok.pure ?_)
      refine ⟨by rw [hw'.1, a2], by dsimp only; omega, by dsimp only; omega, ?_, hw'.2⟩
      dsimp only
      by_cases hm : sieved * primes.get i ≤ b.sieve.size
      · rw [Nat.min_eq_left hm] at a1
        rcases r4 with h4 | h4
        · left
          intro j h5 h6
          rw [a1]
          rcases Nat.lt_or_ge j i with h7 | h7
          · exact Dvd.dvd.mul_right (h4 j h5 h7) _
          · have : j = i := by omega
            subst this
            exact Dvd.intro_left _ rfl
        · right
          omega
      · right; omega
  · rintro ⟨v, last⟩ ⟨r1, r2, r3, r4, r5⟩
    dsimp only at r1 r2 r3 r4 r5 ⊢
    refine Ok.bind (copyLoop_ok r1 r2 r3 (le_refl _) (Or.inr rfl) r4 r5) ?_
    rintro ⟨w, last'⟩ ⟨a1, a2, a3⟩
    refine Ok.pure ⟨rfl, a2, fun k hk => ?_⟩
    have := a3 k hk
    refine this.trans ⟨fun h j h1 h2 => h j h1 (by omega), fun h j h1 h2 => h j h1 (by omega)⟩

end BitSieve
end PS
