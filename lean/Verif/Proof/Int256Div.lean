import Verif.Proof.Int256

namespace PS.I256

theorem getBit_ok (a : I256) (i : Nat) (h : i < 256) :
    getBit a i = .ok (decide (a.nat / 2 ^ i % 2 = 1)) := by
  have key : ∀ (x : BitVec 128) (k : Nat),
      ((x >>> k) &&& 1#128 != 0#128) = decide (x.toNat / 2 ^ k % 2 = 1) := by
    intro x k
    have e : ((x >>> k) &&& 1#128).toNat = x.toNat / 2 ^ k % 2 := by
      rw [BitVec.toNat_and, BitVec.toNat_ushiftRight, Nat.shiftRight_eq_div_pow]
      exact Nat.and_one_is_mod _
    rw [Bool.eq_iff_iff, bne_iff_ne, decide_eq_true_eq, Ne, ← BitVec.toNat_inj, e]
    simp only [BitVec.toNat_ofNat]
    omega
  have hl := a.low.isLt
  unfold getBit shr128
  by_cases hi : i ≥ 128
  · simp only [hi, if_true, show i - 128 < 128 by omega]
    simp only [ok_bind, pure_eq_ok, key]
    obtain ⟨j, rfl⟩ : ∃ j, i = 128 + j := ⟨i - 128, by omega⟩
    rw [show 128 + j - 128 = j by omega]
    unfold nat
    rw [Nat.pow_add, ← Nat.div_div_eq_div_mul,
      show (a.low.toNat + 2 ^ 128 * a.high.toNat) / 2 ^ 128 = a.high.toNat by omega]
  · simp only [hi, if_false, show i < 128 by omega, if_true]
    simp only [ok_bind, pure_eq_ok, key]
    unfold nat
    have e : (2:ℕ) ^ 128 = 2 ^ i * (2 * 2 ^ (127 - i)) := by
      rw [show (128:ℕ) = i + (1 + (127 - i)) by omega, Nat.pow_add, Nat.pow_add]
    rw [e, Nat.mul_assoc, Nat.add_mul_div_left _ _ (by positivity), Nat.mul_assoc, Nat.add_mul_mod_self_left]

theorem or_pow_aux (x i : Nat) (h : x % 2 ^ (i + 1) = 0) : x ||| 2 ^ i = x + 2 ^ i := by
  obtain ⟨k, rfl⟩ := Nat.dvd_of_mod_eq_zero h
  have := Nat.shiftLeft_add_eq_or_of_lt (b := 2 ^ i) (i := i + 1)
    (Nat.pow_lt_pow_right (by omega) (by omega)) k
  rw [Nat.shiftLeft_eq, Nat.mul_comm] at this
  exact this.symm

theorem setBit_true (a : I256) (i : Nat) (h : i < 256) (h0 : a.nat % 2 ^ (i + 1) = 0) :
    Ok (setBit a i true) (fun r => r.nat = a.nat + 2 ^ i) := by
  have hl := a.low.isLt
  have hpow : ∀ k < 128, (1#128 <<< k).toNat = 2 ^ k := by
    intro k hk
    rw [BitVec.toNat_shiftLeft, Nat.shiftLeft_eq]
    simp only [BitVec.toNat_ofNat]
    have : (2:ℕ) ^ k < 2 ^ 128 := Nat.pow_lt_pow_right (by omega) hk
    rw [Nat.mod_eq_of_lt (by omega)]
    omega
  unfold setBit shl128
  by_cases hi : i ≥ 128
  · simp only [show ¬ i ≥ 256 by omega, if_false, hi, if_true, show i - 128 < 128 by omega]
    refine Ok.ok ?_
    obtain ⟨j, rfl⟩ : ∃ j, i = 128 + j := ⟨i - 128, by omega⟩
    rw [show 128 + j - 128 = j by omega]
    unfold nat at *
    have hd := Nat.dvd_of_mod_eq_zero h0
    have hlow : a.low.toNat = 0 := by
      have : 2 ^ 128 ∣ a.low.toNat + 2 ^ 128 * a.high.toNat :=
        (Nat.pow_dvd_pow 2 (by omega)).trans hd
      omega
    rw [hlow, Nat.zero_add, show 128 + j + 1 = 128 + (j + 1) by omega, Nat.pow_add] at hd
    have hd' := Nat.dvd_of_mul_dvd_mul_left (by positivity) hd
    rw [BitVec.toNat_or, hpow j (by omega), or_pow_aux _ _ (Nat.mod_eq_zero_of_dvd hd')]
    rw [Nat.pow_add]
    ring
  · simp only [show ¬ i ≥ 256 by omega, if_false, hi, if_true, show i < 128 by omega]
    refine Ok.ok ?_
    unfold nat at *
    have hd := Nat.dvd_of_mod_eq_zero h0
    have hd' : 2 ^ (i + 1) ∣ a.low.toNat :=
      (Nat.dvd_add_left (Dvd.dvd.mul_right (Nat.pow_dvd_pow 2 (by omega)) _)).1 hd
    rw [BitVec.toNat_or, hpow i (by omega), or_pow_aux _ _ (Nat.mod_eq_zero_of_dvd hd')]
    ring

theorem setBit_zero (a : I256) (v : Bool) (h0 : a.nat % 2 = 0) :
    Ok (setBit a 0 v) (fun r => r.nat = a.nat + v.toNat) := by
  cases v with
  | true => simpa using setBit_true a 0 (by omega) (by simpa using h0)
  | false =>
    unfold setBit shl128
    simp only [show ¬ (0:ℕ) ≥ 256 by omega, show ¬ (0:ℕ) ≥ 128 by omega, if_false,
      show (0:ℕ) < 128 by omega, if_true]
    refine Ok.ok ?_
    have : a.low &&& ~~~(1#128 <<< 0) = a.low := by
      have h1 : a.low.toNat % 2 = 0 := by unfold nat at h0; omega
      apply BitVec.eq_of_getLsbD_eq
      intro i hi
      simp only [BitVec.shiftLeft_zero, BitVec.getLsbD_and, BitVec.getLsbD_not, hi, decide_true,
        Bool.true_and]
      by_cases h : i = 0
      · subst h
        have : a.low.getLsbD 0 = false := by
          rw [BitVec.getLsbD, Nat.testBit_zero]; simp [h1]
        rw [this]; rfl
      · have : (1#128).getLsbD i = false := by simp [h]
        simp [this]
    rw [if_neg (by simp), this]
    rfl

/-- One step of the long division. -/
theorem udivStep_ok (a o : I256) (i : Nat) (q r : I256) (hi : i < 256)
    (ha : a.nat < 2 ^ 255) (ho : 0 < o.nat) (ho' : o.nat < 2 ^ 255)
    (hq : q.nat = 2 ^ (i + 1) * (a.nat / 2 ^ (i + 1) / o.nat))
    (hr : r.nat = a.nat / 2 ^ (i + 1) % o.nat) :
    Ok (udivStep a o i (q, r)) (fun s => s.1.nat = 2 ^ i * (a.nat / 2 ^ i / o.nat) ∧
      s.2.nat = a.nat / 2 ^ i % o.nat) := by
  have hpos : 0 < 2 ^ i := by positivity
  -- shift relation
  have hsh : a.nat / 2 ^ i = 2 * (a.nat / 2 ^ (i + 1)) + a.nat / 2 ^ i % 2 := by
    rw [Nat.pow_succ, ← Nat.div_div_eq_div_mul]; omega
  have hle : a.nat / 2 ^ i ≤ a.nat := Nat.div_le_self _ _
  generalize hA : a.nat / 2 ^ i = A at *
  generalize hA1 : a.nat / 2 ^ (i + 1) = A1 at *
  have hmodle : A1 % o.nat ≤ A1 := Nat.mod_le _ _
  have hmodlt : A1 % o.nat < o.nat := Nat.mod_lt _ ho
  unfold udivStep
  simp only
  refine Ok.bind (nat_shl r 1 (by omega) (by omega)) (fun r1 hr1 => ?_)
  rw [getBit_ok a i hi, hA]
  simp only [ok_bind]
  have hr1' : r1.nat = 2 * (A1 % o.nat) := by
    rw [hr1, hr, Nat.mod_eq_of_lt (by omega)]; omega
  refine Ok.bind (setBit_zero r1 _ (by omega)) (fun r2 hr2 => ?_)
  have hbit : (decide (A % 2 = 1)).toNat = A % 2 := by
    by_cases h : A % 2 = 1
    · simp [h]
    · simp [h]; omega
  rw [hbit, hr1'] at hr2
  have hr2lt : r2.nat < 2 ^ 255 := by omega
  have hge : ge r2 o = true ↔ o.nat ≤ r2.nat := by
    have := lt_iff r2 o
    rw [val_eq, val_eq, if_pos hr2lt, if_pos ho'] at this
    unfold ge
    rw [Bool.not_eq_true', ← Bool.not_eq_true, this]
    omega
  -- arithmetic of quotient and remainder
  have hdm := Nat.div_add_mod A1 o.nat
  generalize hQ1 : A1 / o.nat = Q1 at *
  generalize hR1 : A1 % o.nat = R1 at *
  have hAeq : A = r2.nat + o.nat * (2 * Q1) := by
    rw [hsh, ← hdm, hr2]; ring
  by_cases hc : o.nat ≤ r2.nat
  · have hAq : A / o.nat = 2 * Q1 + 1 := by
      rw [hAeq, Nat.add_mul_div_left _ _ ho]
      have : r2.nat / o.nat = 1 := by
        rw [Nat.div_eq_iff ho]; constructor <;> omega
      omega
    have hAr : A % o.nat = r2.nat - o.nat := by
      rw [hAeq, Nat.add_mul_mod_self_left, Nat.mod_eq_sub_mod hc, Nat.mod_eq_of_lt (by omega)]
    rw [if_pos (hge.2 hc)]
    refine Ok.bind (setBit_true q i hi ?_) (fun q' hq' => ?_)
    · rw [hq]; simp
    · refine Ok.ok ⟨?_, ?_⟩
      · rw [hq', hq, hAq, Nat.pow_succ]; ring
      · rw [nat_sub, hAr]
        omega
  · have hAq : A / o.nat = 2 * Q1 := by
      rw [hAeq, Nat.add_mul_div_left _ _ ho, Nat.div_eq_of_lt (by omega)]; omega
    have hAr : A % o.nat = r2.nat := by
      rw [hAeq, Nat.add_mul_mod_self_left, Nat.mod_eq_of_lt (by omega)]
    rw [if_neg (fun h => hc (hge.1 h))]
    refine Ok.ok ⟨?_, ?_⟩
    · simp only [hq, hAq, Nat.pow_succ]; ring
    · rw [hAr]

theorem udivLoop_ok (a o : I256) (n : Nat) (q r : I256) (hn : n ≤ 256)
    (ha : a.nat < 2 ^ 255) (ho : 0 < o.nat) (ho' : o.nat < 2 ^ 255)
    (hq : q.nat = 2 ^ n * (a.nat / 2 ^ n / o.nat)) (hr : r.nat = a.nat / 2 ^ n % o.nat) :
    Ok (udivLoop a o n (q, r)) (fun s => s.1.nat = a.nat / o.nat ∧ s.2.nat = a.nat % o.nat) := by
  induction n generalizing q r with
  | zero =>
    refine Ok.ok ?_
    simp only [Nat.pow_zero, Nat.one_mul, Nat.div_one] at hq hr
    exact ⟨hq, hr⟩
  | succ n ih =>
    unfold udivLoop
    refine Ok.bind (udivStep_ok a o n q r (by omega) ha ho ho' hq hr) (fun s hs => ?_)
    exact ih s.1 s.2 (by omega) hs.1 hs.2

theorem eq_ofInt_zero (x : I256) : eq x (ofInt 0) = true ↔ x.nat = 0 := by
  rw [eq_iff]
  constructor
  · rintro rfl; decide
  · intro h; exact nat_inj (by rw [h]; decide)

theorem findMsb_ok (a : I256) : Ok (findMsb a) (fun p => p ≤ 256 ∧ a.nat < 2 ^ p ∧
    ∀ j, a.nat < 2 ^ j → p ≤ j) := by
  unfold findMsb
  refine loop_ok (fun s => s.1.nat = a.nat / 2 ^ s.2 ∧ s.2 ≤ 256 ∧ ∀ j < s.2, 2 ^ j ≤ a.nat)
    (fun s => 256 - s.2) _ ?_ (by simp) ?_
  · simp
  · rintro ⟨x, pos⟩ ⟨h1, h2, h3⟩
    simp only at h1 h2 h3 ⊢
    by_cases hx : x.nat = 0
    · have : ne x (ofInt 0) = false := by
        unfold ne; rw [(eq_ofInt_zero x).2 hx]; rfl
      rw [this]
      refine Ok.ok ⟨h2, ?_, ?_⟩
      · rw [hx] at h1
        exact (Nat.div_eq_zero_iff_lt (by positivity)).1 h1.symm
      · intro j hj
        by_contra hc
        have := h3 j (by omega)
        omega
    · have : ne x (ofInt 0) = true := by
        unfold ne
        rw [Bool.not_eq_true', ← Bool.not_eq_true, eq_ofInt_zero]; exact hx
      rw [this]
      simp only [if_true]
      refine Ok.bind (nat_shr x 1 (by omega) (by omega)) (fun x' hx' => ?_)
      have hge : 2 ^ pos ≤ a.nat := by
        by_contra hc
        rw [Nat.div_eq_of_lt (by omega)] at h1
        exact hx h1
      have hpos : pos < 256 := by
        by_contra hc
        have := a.nat_lt
        have h5 : 2 ^ 256 ≤ 2 ^ pos := Nat.pow_le_pow_right (by omega) (by omega)
        omega
      refine Ok.ok ⟨⟨?_, by simp only; omega, ?_⟩, by simp only; omega⟩
      · simp only [hx', h1, Nat.pow_succ, Nat.div_div_eq_div_mul, Nat.pow_zero, Nat.one_mul]
      · intro j hj
        simp only at hj
        by_cases h : j < pos
        · exact h3 j h
        · rw [show j = pos by omega]; exact hge

/-- `udiv256` on non-negative operands. -/
theorem udiv_ok (a o : I256) (ha : a.nat < 2 ^ 255) (ho : 0 < o.nat) (ho' : o.nat < 2 ^ 255) :
    Ok (udiv a o) (fun s => s.1.nat = a.nat / o.nat ∧ s.2.nat = a.nat % o.nat) := by
  unfold udiv
  have h0 : ¬ eq o (ofInt 0) = true := by rw [eq_ofInt_zero]; omega
  rw [if_neg h0]
  refine Ok.ite (fun h1 => ?_) (fun h1 => ?_)
  · rw [eq_iff] at h1; subst h1
    refine Ok.ok ?_
    simp [Nat.mod_one]
  refine Ok.ite (fun h2 => ?_) (fun h2 => ?_)
  · rw [eq_iff] at h2; subst h2
    refine Ok.ok ?_
    simp [Nat.div_self ho]
  have hlt : lt a o = true ↔ a.nat < o.nat := by
    rw [lt_iff, val_eq, val_eq, if_pos ha, if_pos ho']; omega
  refine Ok.ite (fun h3 => ?_) (fun h3 => ?_)
  · have : a.nat < o.nat := by
      rw [Bool.or_eq_true, Bool.and_eq_true, eq_ofInt_zero, hlt] at h3
      rcases h3 with h3 | h3
      · omega
      · exact h3.2
    refine Ok.ok ?_
    simp [Nat.div_eq_of_lt this, Nat.mod_eq_of_lt this]
  refine Ok.ite (fun h4 => ?_) (fun h4 => ?_)
  · rw [Bool.and_eq_true, beq_iff_eq, beq_iff_eq] at h4
    refine Ok.ok ?_
    unfold nat
    simp [h4.1, h4.2]
  refine Ok.bind (findMsb_ok a) (fun i hi => ?_)
  obtain ⟨hi1, hi2, hi3⟩ := hi
  have hi4 := hi3 255 ha
  rw [if_pos hi1]
  refine udivLoop_ok a o (i + 1) _ _ (by omega) ha ho ho' ?_ ?_
  · have : a.nat < 2 ^ (i + 1) := lt_of_lt_of_le hi2 (Nat.pow_le_pow_right (by omega) (by omega))
    rw [Nat.div_eq_of_lt this]; simp
  · have : a.nat < 2 ^ (i + 1) := lt_of_lt_of_le hi2 (Nat.pow_le_pow_right (by omega) (by omega))
    rw [Nat.div_eq_of_lt this]; simp

theorem val_of_nat_lt {a : I256} (h : a.nat < 2 ^ 255) : a.val = a.nat := by
  rw [val_eq, if_pos h]

theorem val_neg' {a : I256} : (neg a).val = wrap (-a.val) := by
  apply val_eq_wrap
  rw [nat_neg]
  have := a.nat_lt
  rw [val_eq]
  split <;> omega

/-- If `a` stays away from the minimum, `-a` is exact. -/
theorem val_neg_exact {a : I256} (h : a.val ≠ -2 ^ 255) : (neg a).val = -a.val := by
  rw [val_neg']
  have := val_range a
  unfold InRange at this
  exact wrap_of_inRange ⟨by omega, by omega⟩

theorem nat_of_val_nonneg {a : I256} (h : 0 ≤ a.val) : (a.nat : Int) = a.val ∧ a.nat < 2 ^ 255 := by
  have := a.nat_lt
  have e := val_eq a
  split at e <;> rename_i h' <;> constructor <;> omega

/-- `div256` truncates towards zero. -/
theorem divmod_ok (a b : I256) (hb : b.val ≠ 0) (ha' : a.val ≠ -2 ^ 255) (hb' : b.val ≠ -2 ^ 255) :
    Ok (divmod a b) (fun s => s.1.val = a.val.tdiv b.val ∧ s.2.val = a.val.tmod b.val) := by
  have h0 : (ofInt 0).val = 0 := by decide
  have hra := val_range a
  have hrb := val_range b
  unfold InRange at hra hrb
  have hla : lt a (ofInt 0) = true ↔ a.val < 0 := by rw [lt_iff, h0]
  have hlb : lt b (ofInt 0) = true ↔ b.val < 0 := by rw [lt_iff, h0]
  -- the generic step on non-negative operands
  have key : ∀ u v : I256, 0 ≤ u.val → 0 < v.val →
      Ok (udiv u v) (fun s => s.1.val = u.val / v.val ∧ s.2.val = u.val % v.val) := by
    intro u v hu hv
    obtain ⟨e1, l1⟩ := nat_of_val_nonneg hu
    obtain ⟨e2, l2⟩ := nat_of_val_nonneg hv.le
    refine (udiv_ok u v l1 (by omega) l2).mono (fun s hs => ?_)
    have hq : s.1.nat < 2 ^ 255 := by
      rw [hs.1]; exact lt_of_le_of_lt (Nat.div_le_self _ _) l1
    have hr : s.2.nat < 2 ^ 255 := by
      rw [hs.2]; exact lt_of_le_of_lt (Nat.mod_le _ _) l1
    rw [val_of_nat_lt hq, val_of_nat_lt hr, hs.1, hs.2, ← e1, ← e2]
    constructor <;> push_cast <;> rfl
  have bq : ∀ u v : Int, 0 ≤ u → u < 2 ^ 255 → 0 < v → 0 ≤ u / v ∧ u / v < 2 ^ 255 := by
    intro u v h1 h2 h3
    exact ⟨Int.ediv_nonneg h1 h3.le, lt_of_le_of_lt (Int.ediv_le_self _ h1) h2⟩
  have br : ∀ u v : Int, 0 ≤ u → u < 2 ^ 255 → 0 < v → v < 2 ^ 255 → 0 ≤ u % v ∧ u % v < 2 ^ 255 := by
    intro u v h1 h2 h3 h4
    have := Int.emod_lt_of_pos u h3
    exact ⟨Int.emod_nonneg _ (by omega), by omega⟩
  unfold divmod
  refine Ok.ite (fun c1 => ?_) (fun c1 => ?_) <;> rw [hla] at c1
  · have na := val_neg_exact ha'
    refine Ok.ite (fun c2 => ?_) (fun c2 => ?_) <;> rw [hlb] at c2
    · have nb := val_neg_exact hb'
      refine Ok.bind (key (neg a) (neg b) (by omega) (by omega)) (fun s hs => Ok.ok ?_)
      rw [na, nb] at hs
      have h1 := bq (-a.val) (-b.val) (by omega) (by omega) (by omega)
      have h2 := br (-a.val) (-b.val) (by omega) (by omega) (by omega) (by omega)
      constructor
      · simp only [hs.1]
        rw [← Int.neg_tdiv_neg, Int.tdiv_eq_ediv_of_nonneg (by omega)]
      · simp only
        rw [val_neg_exact (by omega), hs.2]
        have e : a.val = -(-a.val) := by omega
        rw [e, Int.neg_tmod, ← Int.tmod_neg, Int.tmod_eq_emod_of_nonneg (by omega)]
        simp
    · refine Ok.bind (key (neg a) b (by omega) (by omega)) (fun s hs => Ok.ok ?_)
      rw [na] at hs
      have h1 := bq (-a.val) b.val (by omega) (by omega) (by omega)
      have h2 := br (-a.val) b.val (by omega) (by omega) (by omega) (by omega)
      have e : a.val = -(-a.val) := by omega
      constructor
      · simp only
        rw [val_neg_exact (by omega), hs.1]
        conv_rhs => rw [e, Int.neg_tdiv, Int.tdiv_eq_ediv_of_nonneg (by omega)]
      · simp only
        rw [val_neg_exact (by omega), hs.2]
        conv_rhs => rw [e, Int.neg_tmod, Int.tmod_eq_emod_of_nonneg (by omega)]
  · refine Ok.ite (fun c2 => ?_) (fun c2 => ?_) <;> rw [hlb] at c2
    · have nb := val_neg_exact hb'
      refine Ok.bind (key a (neg b) (by omega) (by omega)) (fun s hs => Ok.ok ?_)
      rw [nb] at hs
      have h1 := bq a.val (-b.val) (by omega) (by omega) (by omega)
      have h2 := br a.val (-b.val) (by omega) (by omega) (by omega) (by omega)
      constructor
      · simp only
        rw [val_neg_exact (by omega), hs.1, Int.tdiv_eq_ediv_of_nonneg (by omega), Int.ediv_neg, neg_neg]
      · simp only [hs.2]
        rw [Int.tmod_eq_emod_of_nonneg (by omega), Int.emod_neg]
    · refine (key a b (by omega) (by omega)).mono (fun s hs => ?_)
      rw [Int.tdiv_eq_ediv_of_nonneg (by omega), Int.tmod_eq_emod_of_nonneg (by omega)]
      exact hs

end PS.I256
