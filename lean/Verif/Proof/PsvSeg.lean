import Verif.Proof.Dbl
import Verif.Proof.PsvPre
import Mathlib.Data.Nat.Log

/-!
# Erat: every segment comes out exact
-/

namespace PS
namespace Psv

/-! ## The size of the sieve array -/

theorem floorPow2_spec {n : ℕ} (h0 : n ≠ 0) (h : n < 2 ^ 64) : floorPow2 n = 2 ^ Nat.log2 n := by
  have step : ∀ (x w : ℕ), (∀ j, x.testBit j = true ↔ ∃ d < w, n.testBit (j + d) = true) →
      ∀ j, (x ||| x >>> w).testBit j = true ↔ ∃ d < w + w, n.testBit (j + d) = true := by
    intro x w hx j
    rw [Nat.testBit_or, Nat.testBit_shiftRight, Bool.or_eq_true, hx, hx]
    constructor
    · rintro (⟨d, hd, h1⟩ | ⟨d, hd, h1⟩)
      · exact ⟨d, by omega, h1⟩
      · exact ⟨w + d, by omega, by rw [show j + (w + d) = w + j + d by omega]; exact h1⟩
    · rintro ⟨d, hd, h1⟩
      rcases lt_or_ge d w with h2 | h2
      · exact .inl ⟨d, h2, h1⟩
      · exact .inr ⟨d - w, by omega, by rw [show w + j + (d - w) = j + d by omega]; exact h1⟩
  have h1 : ∀ j, (([1, 2, 4, 8, 16, 32] : List ℕ).foldl (fun x i => x ||| (x >>> i)) n).testBit j = true ↔
      ∃ d < 64, n.testBit (j + d) = true :=
    step _ 32 (step _ 16 (step _ 8 (step _ 4 (step _ 2 (step n 1 (fun j => ⟨fun h => ⟨0, by omega, h⟩,
      fun ⟨d, hd, h⟩ => by
        have : d = 0 := by omega
        subst this
        exact h⟩))))))
  unfold floorPow2
  generalize ([1, 2, 4, 8, 16, 32] : List ℕ).foldl (fun x i => x ||| (x >>> i)) n = y at h1
  have hlog : Nat.log2 n < 64 := (Nat.log2_lt h0).2 h
  have e : y = 2 ^ (Nat.log2 n + 1) - 1 := by
    apply Nat.eq_of_testBit_eq
    intro j
    rw [Nat.testBit_two_pow_sub_one, Bool.eq_iff_iff, h1, decide_eq_true_iff]
    constructor
    · rintro ⟨d, hd, h2⟩
      by_contra hc
      have : n < 2 ^ (j + d) := lt_of_lt_of_le Nat.lt_log2_self (Nat.pow_le_pow_right (by norm_num) (by omega))
      rw [Nat.testBit_lt_two_pow this] at h2
      cases h2
    · intro hj
      refine ⟨Nat.log2 n - j, by omega, ?_⟩
      rw [show j + (Nat.log2 n - j) = Nat.log2 n by omega]
      exact Nat.testBit_log2 h0
  dsimp only
  rw [e, Nat.shiftRight_eq_div_pow]
  have : 0 < 2 ^ Nat.log2 n := by positivity
  rw [pow_succ]
  omega

theorem initSieveSize_ok {n : ℕ} (h : n < 2 ^ 64) : ∃ e, 13 ≤ e ∧ e ≤ 22 ∧ initSieveSize n = 2 ^ e := by
  unfold initSieveSize inBetween
  by_cases h0 : n = 0
  · subst h0
    exact ⟨13, by norm_num, by norm_num, by decide +kernel⟩
  · rw [floorPow2_spec h0 h]
    split
    · exact ⟨13, by norm_num, by norm_num, by norm_num⟩
    · next h1 =>
      split
      · exact ⟨22, by norm_num, by norm_num, by norm_num⟩
      · next h2 =>
        refine ⟨Nat.log2 n + 10, ?_, ?_, by rw [pow_add]; norm_num⟩
        · by_contra hc
          have : 2 ^ Nat.log2 n ≤ 2 ^ 2 := Nat.pow_le_pow_right (by norm_num) (by omega)
          omega
        · by_contra hc
          have : 2 ^ 13 ≤ 2 ^ Nat.log2 n := Nat.pow_le_pow_right (by norm_num) (by omega)
          omega

/-! ## The invariant -/

theorem eratSmallMax_ok {l : ℕ} (h : l ≤ 2 ^ 53) : Ok (eratSmallMax l) (fun r => r ≤ l) := by
  unfold eratSmallMax
  obtain ⟨c, h1, h2, h3⟩ := Dbl.round_unit (q := 175 / 1000) (by norm_num) (by norm_num)
  rw [h1]
  exact Dbl.mul_toUInt64 h h2 h3

theorem eratMediumMax_ok {n : ℕ} (h : n ≤ 2 ^ 50) : eratMediumMax n = .ok (n * 5) := by
  unfold eratMediumMax
  have := Dbl.mul_nat_toUInt64 (n := n) (m := 5) (by omega) (by omega)
  simpa using this

theorem floorPow2_clamp {lo : ℕ} (x : ℕ) (h0 : 8 ≤ lo) (h : lo ≤ 4096) :
    ∃ k, 3 ≤ k ∧ k ≤ 12 ∧ floorPow2 (inBetween lo x 4096) = 2 ^ k := by
  have hb : lo ≤ inBetween lo x 4096 ∧ inBetween lo x 4096 ≤ 4096 := by
    unfold inBetween
    split
    · omega
    · split <;> omega
  rw [floorPow2_spec (by omega) (by omega)]
  refine ⟨_, ?_, ?_, rfl⟩
  · rw [Nat.le_log2 (by omega)]
    omega
  · rw [← Nat.lt_succ_iff, Nat.log2_lt (by omega)]
    omega

/-- **get_sieve_size** for every description of the CPU and every setting. -/
theorem getSieveSize_pow (env : Env) : ∃ k, 3 ≤ k ∧ k ≤ 12 ∧ getSieveSize env = 2 ^ k := by
  unfold getSieveSize
  by_cases h : userSieveSize env = 0
  · rw [if_neg (by simpa using h)]
    split
    · exact floorPow2_clamp _ (by norm_num) (by norm_num)
    · split
      · exact floorPow2_clamp _ (by norm_num) (by norm_num)
      · split
        · exact floorPow2_clamp _ (by norm_num) (by norm_num)
        · exact floorPow2_clamp _ (by norm_num) (by norm_num)
  · rw [if_pos h]
    unfold userSieveSize at h ⊢
    split
    · exact floorPow2_clamp _ (by norm_num) (by norm_num)
    · next hs => rw [hs] at h; exact absurd rfl h

theorem getSieveSize_lt (env : Env) : getSieveSize env < 2 ^ 64 := by
  obtain ⟨k, -, h2, h3⟩ := getSieveSize_pow env
  rw [h3]
  exact Nat.pow_lt_pow_right (by norm_num) (by omega)

/-- The three crossing-off algorithms are ready for an array with base `L` and handle the primes `D`. -/
structure Parts (er : Erat) (L e : ℕ) (D : ℕ → Prop) : Prop where
  small : er.small.enabled = true → Handles W30 L er.stop (fun p => D p ∧ p ≤ er.maxEratSmall) (vmem er.small.primes) ∧
    er.small.stop = er.stop ∧ 0 < er.small.l1CacheSize
  smallOn : er.maxPreSieve < Nat.sqrt er.stop → er.small.enabled = true
  medium : er.medium.enabled = true → Handles W30 L er.stop (fun p => D p ∧ er.maxEratSmall < p ∧ p ≤ er.maxEratMedium)
    (bmem er.medium.buckets) ∧ Sorted er.medium.buckets ∧ er.medium.stop = er.stop
  mediumOn : er.maxEratSmall < Nat.sqrt er.stop → er.medium.enabled = true
  big : er.big.enabled = true → BigOK L e (Nat.sqrt er.stop) (fun p => D p ∧ er.maxEratMedium < p) er.big ∧
    er.big.stop = er.stop
  bigOn : er.maxEratMedium < Nat.sqrt er.stop → er.big.enabled = true

/-- What does not change during the life of the sieve. -/
structure Fixed (er : Erat) (e : ℕ) (D : ℕ → Prop) : Prop where
  he : 13 ≤ e ∧ e ≤ 22
  sz : er.sieve.size = 2 ^ e
  startLe : er.start ≤ er.stop
  stopLt : er.stop < 2 ^ 64
  pre : 7 ≤ er.maxPreSieve ∧ er.maxPreSieve < er.start
  smallMax : er.maxEratSmall ≤ 2 ^ e
  mediumMax : er.maxEratMedium = 5 * 2 ^ e
  primes : ∀ p, D p → p.Prime ∧ er.maxPreSieve < p ∧ p * p ≤ er.stop

/-- Before a segment. -/
structure EInv (er : Erat) (e : ℕ) (D : ℕ → Prop) : Prop extends Fixed er e D, Parts er er.segmentLow e D where
  ssz : er.sieveSize = 2 ^ e
  low30 : er.segmentLow % 30 = 0
  lowStop : er.segmentLow + 7 ≤ er.stop
  first : er.start < er.segmentLow ∨ er.segmentLow + byteRemainder er.start = er.start
  high : er.segmentHigh = min (er.segmentLow + 30 * 2 ^ e + 6) er.stop

theorem byteRemainder_range (n : ℕ) : 7 ≤ byteRemainder n ∧ byteRemainder n ≤ 36 ∧ byteRemainder n % 30 = n % 30 := by
  unfold byteRemainder
  split <;> omega

theorem pow_range {e : ℕ} (he : 13 ≤ e ∧ e ≤ 22) : 2 ^ 13 ≤ 2 ^ e ∧ 2 ^ e ≤ 2 ^ 22 ∧ 2 ^ e % 8 = 0 := by
  refine ⟨Nat.pow_le_pow_right (by norm_num) he.1, Nat.pow_le_pow_right (by norm_num) he.2, ?_⟩
  obtain ⟨d, rfl⟩ := Nat.exists_eq_add_of_le he.1
  rw [pow_add]
  omega

theorem coprime210_of_prime {p : ℕ} (hp : p.Prime) (h : 7 < p) : p.Coprime 210 := by
  rw [hp.coprime_iff_not_dvd]
  intro hd
  have h2 : p ∣ 2 * 3 * 5 * 7 := hd
  rcases (Nat.Prime.dvd_mul hp).1 h2 with h2 | h2
  · rcases (Nat.Prime.dvd_mul hp).1 h2 with h2 | h2
    · rcases (Nat.Prime.dvd_mul hp).1 h2 with h2 | h2 <;> have := Nat.le_of_dvd (by norm_num) h2 <;> omega
    · have := Nat.le_of_dvd (by norm_num) h2
      omega
  · have := Nat.le_of_dvd (by norm_num) h2
    omega

theorem coprime30_of_prime {p : ℕ} (hp : p.Prime) (h : 7 ≤ p) : p.Coprime 30 := by
  rcases Nat.lt_or_ge 7 p with h1 | h1
  · exact Nat.Coprime.coprime_dvd_right (by norm_num) (coprime210_of_prime hp h1)
  · have : p = 7 := by omega
    subst this
    decide

/-! ## addSievingPrime -/

theorem addSievingPrime_ok {er : Erat} {e p : ℕ} {D : ℕ → Prop} (h : EInv er e D) (hp : p.Prime)
    (hm : er.maxPreSieve < p) (hsq : p * p ≤ er.segmentHigh) :
    Ok (er.addSievingPrime p) (fun r => EInv r e (fun x => D x ∨ x = p) ∧
      r = { er with small := r.small, medium := r.medium, big := r.big }) := by
  have hpr := pow_range h.he
  have h7 : 7 < p := by have := h.pre.1; omega
  have hhigh := h.high
  have hst := h.stopLt
  have hpst : p * p ≤ er.stop := by omega
  have hps : p ≤ Nat.sqrt er.stop := Nat.le_sqrt.2 hpst
  have hlow : er.segmentLow < 2 ^ 64 := by have := h.lowStop; omega
  have hprimes : ∀ x, (D x ∨ x = p) → x.Prime ∧ er.maxPreSieve < x ∧ x * x ≤ er.stop := by
    rintro x (hx | rfl)
    · exact h.primes x hx
    · exact ⟨hp, hm, hpst⟩
  have hsm := h.smallMax
  have hmm := h.mediumMax
  have hc30 := coprime30_of_prime hp (by omega)
  have hsq32 : Nat.sqrt er.stop < 2 ^ 32 := by
    rw [Nat.sqrt_lt']
    exact lt_of_lt_of_le hst (by norm_num)
  have congr : ∀ {w : WheelT} {L s : ℕ} {A B : ℕ → Prop} {mem : SievingPrime → Prop},
      Handles w L s A mem → (∀ x, A x ↔ B x) → Handles w L s B mem := by
    intro w L s A B mem h1 h2
    have : A = B := funext fun x => propext (h2 x)
    rwa [← this]
  have congrB : ∀ {L mp : ℕ} {A B : ℕ → Prop} {s : EratBig},
      BigOK L e mp A s → (∀ x, A x ↔ B x) → BigOK L e mp B s := by
    intro L mp A B s h1 h2
    have : A = B := funext fun x => propext (h2 x)
    rwa [← this]
  unfold Erat.addSievingPrime
  refine Ok.ite (fun hc => ?_) (fun hc => Ok.ite (fun hc2 => ?_) (fun hc2 => ?_))
  · obtain ⟨b1, b2⟩ := h.big (h.bigOn (by omega))
    refine Ok.bind (EratBig_add_ok b1 h.he.2 (by omega) hsq32 (coprime210_of_prime hp h7) (by omega) hps h.low30 hlow
      (by rw [b2]; exact hst) (by omega)) (fun b hb => Ok.pure ⟨?_, rfl⟩)
    obtain ⟨c1, c2⟩ := hb
    have cs : b.stop = er.stop := by rw [c2]; exact b2
    have ce : b.enabled = er.big.enabled := by rw [c2]
    refine { h with
      primes := hprimes
      small := fun hh => ⟨congr (h.small hh).1 (fun x => ?_), (h.small hh).2⟩
      medium := fun hh => ⟨congr (h.medium hh).1 (fun x => ?_), (h.medium hh).2⟩
      big := fun hh => ⟨congrB c1 (fun x => ?_), cs⟩
      bigOn := fun hh => by
        dsimp only
        rw [ce]
        exact h.bigOn hh }
    · constructor
      · rintro ⟨h1, h2⟩
        exact ⟨.inl h1, h2⟩
      · rintro ⟨h1 | h1, h2⟩
        · exact ⟨h1, h2⟩
        · dsimp only at h2
          omega
    · constructor
      · rintro ⟨h1, h2⟩
        exact ⟨.inl h1, h2⟩
      · rintro ⟨h1 | h1, h2⟩
        · exact ⟨h1, h2⟩
        · dsimp only at h2
          omega
    · constructor
      · rintro (⟨h1, h2⟩ | h1)
        · exact ⟨.inl h1, h2⟩
        · subst h1
          exact ⟨.inr rfl, hc⟩
      · rintro ⟨h1 | h1, h2⟩
        · exact .inl ⟨h1, h2⟩
        · exact .inr h1
  · obtain ⟨b1, b2, b3⟩ := h.medium (h.mediumOn (by omega))
    rw [← b3] at b1
    refine Ok.bind (EratMedium_add_ok b1 b2 hc30 (by omega) (by omega) h.low30 hlow
      (by rw [b3]; exact hst) (by omega)) (fun b hb => Ok.pure ⟨?_, rfl⟩)
    obtain ⟨c1, c2, c3⟩ := hb
    rw [b3] at c1
    have cs : b.stop = er.stop := by rw [c3]; exact b3
    have ce : b.enabled = er.medium.enabled := by rw [c3]
    refine { h with
      primes := hprimes
      small := fun hh => ⟨congr (h.small hh).1 (fun x => ?_), (h.small hh).2⟩
      medium := fun hh => ⟨congr c1 (fun x => ?_), c2, cs⟩
      big := fun hh => ⟨congrB (h.big hh).1 (fun x => ?_), (h.big hh).2⟩
      mediumOn := fun hh => by
        dsimp only
        rw [ce]
        exact h.mediumOn hh }
    · constructor
      · rintro ⟨h1, h2⟩
        exact ⟨.inl h1, h2⟩
      · rintro ⟨h1 | h1, h2⟩
        · exact ⟨h1, h2⟩
        · dsimp only at h2
          omega
    · constructor
      · rintro (⟨h1, h2⟩ | h1)
        · exact ⟨.inl h1, h2⟩
        · subst h1
          exact ⟨.inr rfl, hc2, by dsimp only; omega⟩
      · rintro ⟨h1 | h1, h2⟩
        · exact .inl ⟨h1, h2⟩
        · exact .inr h1
    · constructor
      · rintro ⟨h1, h2⟩
        exact ⟨.inl h1, h2⟩
      · rintro ⟨h1 | h1, h2⟩
        · exact ⟨h1, h2⟩
        · dsimp only at h2
          omega
  · obtain ⟨b1, b2, b3⟩ := h.small (h.smallOn (by omega))
    rw [← b2] at b1
    refine Ok.bind (EratSmall_add_ok b1 hc30 (by omega) (by omega) h.low30 hlow
      (by rw [b2]; exact hst) (by omega)) (fun b hb => Ok.pure ⟨?_, rfl⟩)
    obtain ⟨c1, c3⟩ := hb
    rw [b2] at c1
    have cs : b.stop = er.stop := by rw [c3]; exact b2
    have ce : b.enabled = er.small.enabled := by rw [c3]
    have cl : 0 < b.l1CacheSize := by rw [c3]; exact b3
    refine { h with
      primes := hprimes
      small := fun hh => ⟨congr c1 (fun x => ?_), cs, cl⟩
      medium := fun hh => ⟨congr (h.medium hh).1 (fun x => ?_), (h.medium hh).2⟩
      big := fun hh => ⟨congrB (h.big hh).1 (fun x => ?_), (h.big hh).2⟩
      smallOn := fun hh => by
        dsimp only
        rw [ce]
        exact h.smallOn hh }
    · constructor
      · rintro (⟨h1, h2⟩ | h1)
        · exact ⟨.inl h1, h2⟩
        · subst h1
          exact ⟨.inr rfl, by dsimp only; omega⟩
      · rintro ⟨h1 | h1, h2⟩
        · exact .inl ⟨h1, h2⟩
        · exact .inr h1
    · constructor
      · rintro ⟨h1, h2⟩
        exact ⟨.inl h1, h2⟩
      · rintro ⟨h1 | h1, h2⟩
        · exact ⟨h1, h2⟩
        · dsimp only at h2
          omega
    · constructor
      · rintro ⟨h1, h2⟩
        exact ⟨.inl h1, h2⟩
      · rintro ⟨h1 | h1, h2⟩
        · exact ⟨h1, h2⟩
        · dsimp only at h2
          omega

/-! ## init -/

theorem max64_eq : max64 = 18446744073709551615 := by decide

theorem checkedAdd_min {x y t : ℕ} (ht : t ≤ max64) : min (checkedAdd x y) t = min (x + y) t := by
  rw [max64_eq] at ht
  unfold checkedAdd
  rw [max64_eq]
  split <;> omega

theorem checkedAdd_lt {x y : ℕ} (h : x + y < max64) : checkedAdd x y = x + y := by
  unfold checkedAdd
  rw [if_neg (by omega)]

theorem le_max64 {t : ℕ} (h : t < 2 ^ 64) : t ≤ max64 := by
  rw [max64_eq]
  exact Nat.le_of_lt_succ h

theorem getL1_ok {env : Env} {n : ℕ} (h1 : 8192 ≤ n) (h2 : n ≤ 4194304) :
    0 < getL1CacheSize env n ∧ getL1CacheSize env n ≤ n := by
  unfold getL1CacheSize inBetween
  norm_num
  split <;> [skip; omega]
  split <;> [omega; skip]
  split <;> omega

theorem vmem_nil (s : SievingPrime) : ¬ vmem ⟨#[]⟩ s := by
  rintro ⟨j, hj, -⟩
  simp [Vec.size] at hj

theorem bmem_nil (s : SievingPrime) : ¬ bmem (Vec.mk' 64 []) s := by
  rintro ⟨j, hj, h⟩
  rw [Vec.size_mk'] at hj
  unfold inB at h
  rw [Vec.get_mk' _ _ _ hj] at h
  simp at h

theorem Erat_init_ok {env : Env} {er : Erat} {start stop sieveSize : ℕ} {pre : PreSieve}
    (hoff : er.small.enabled = false ∧ er.medium.enabled = false ∧ er.big.enabled = false)
    (hle : start ≤ stop) (hst : stop < 2 ^ 64) (h7 : 7 ≤ start) (hss : sieveSize < 2 ^ 64)
    (hpre : PreOK pre ∨ pre.maxPrime = 0)
    (hmax : max pre.maxPrime (prePrimes.get (lowerBound (max (stop - start) (Nat.sqrt stop) / 100))) < start) :
    Ok (er.init env start stop sieveSize pre) (fun r => PreOK r.2 ∧
      r.2.maxPrime = max pre.maxPrime (prePrimes.get (lowerBound (max (stop - start) (Nat.sqrt stop) / 100))) ∧
      (prePrimes.get (lowerBound (max (stop - start) (Nat.sqrt stop) / 100)) ≤ pre.maxPrime → r.2 = pre) ∧
      (∃ e, EInv r.1 e (fun _ => False)) ∧ r.1.start = start ∧ r.1.stop = stop ∧ r.1.maxPreSieve = r.2.maxPrime ∧
      r.1.segmentLow + byteRemainder start = start) := by
  unfold Erat.init
  rw [if_neg (by omega)]
  refine Ok.bind (PreSieve_init_ok env hpre hle hst) (fun pre' hpre' => ?_)
  obtain ⟨p1, p2, p3⟩ := hpre'
  dsimp only
  have hbr := byteRemainder_range start
  have hbl : byteRemainder start ≤ start := by
    unfold byteRemainder
    split <;> omega
  rw [csub_ok hbl]
  simp only [ok_bind]
  obtain ⟨e, he1, he2, he⟩ := initSieveSize_ok hss
  rw [he]
  have hpr := pow_range ⟨he1, he2⟩
  unfold Erat.initErat
  dsimp only
  rw [isqrt_ok env hst]
  simp only [ok_bind]
  obtain ⟨l1, l2⟩ := getL1_ok (env := env) (n := 2 ^ e) (by omega) (by omega)
  have h7p : 7 ≤ pre'.maxPrime := by
    obtain ⟨i5, hi5, h1, -⟩ := p1.idx
    rw [h1]
    exact (pre_tables i5 hi5).1
  have hhigh : min (checkedAdd (start - byteRemainder start) (2 ^ e * 30 + 6)) stop =
      min (start - byteRemainder start + 30 * 2 ^ e + 6) stop := by
    rw [checkedAdd_min (le_max64 hst), Nat.mul_comm (2 ^ e) 30, Nat.add_assoc]
  rw [hhigh]
  simp only [bind_assoc]
  refine Ok.bind (eratSmallMax_ok (by omega)) (fun sm hsm => ?_)
  rw [eratMediumMax_ok (by omega)]
  simp only [ok_bind]
  refine Ok.bind (P := fun b => (b.enabled = true →
    BigOK (start - byteRemainder start) e (Nat.sqrt stop) (fun _ => False) b ∧ b.stop = stop) ∧
    (2 ^ e * 5 < Nat.sqrt stop → b.enabled = true)) (Ok.ite (fun hc => ?_) (fun hc => ?_)) (fun b hb => ?_)
  · exact Ok.mono (EratBig_init_ok (L := start - byteRemainder start) he2) (fun b hb => ⟨fun _ => ⟨hb.1, hb.2.1⟩, fun _ => hb.2.2⟩)
  · refine Ok.pure ⟨fun h => ?_, fun h => absurd h hc⟩
    rw [hoff.2.2] at h
    cases h
  · obtain ⟨b1, b2⟩ := hb
    refine Ok.pure ⟨p1, p2, p3, ⟨e, ?_⟩, rfl, rfl, rfl, by dsimp only; omega⟩
    have ho := hoff
    exact {
      he := ⟨he1, he2⟩
      sz := by dsimp only; rw [Vec.size_mk']
      startLe := hle
      stopLt := hst
      pre := ⟨h7p, by dsimp only; rw [p2]; exact hmax⟩
      smallMax := by dsimp only; omega
      mediumMax := by dsimp only; omega
      primes := fun p hp => hp.elim
      small := fun h => by
        dsimp only at h ⊢
        split at h
        · rw [if_pos (by assumption)]
          refine ⟨⟨fun s hs => absurd hs (vmem_nil s), fun p hp => hp.1.elim⟩, rfl, l1⟩
        · rw [hoff.1] at h
          cases h
      smallOn := fun h => by
        dsimp only at h ⊢
        rw [if_pos h]
        rfl
      medium := fun h => by
        dsimp only at h ⊢
        split at h
        · rw [if_pos (by assumption)]
          refine ⟨⟨fun s hs => absurd hs (bmem_nil s), fun p hp => hp.1.elim⟩, ⟨by
            unfold EratMedium.init; dsimp only; rw [Vec.size_mk'], fun i hi y hy => ?_⟩, rfl⟩
          exact absurd ⟨i, by rw [Vec.size_mk']; exact hi, hy⟩ (bmem_nil y)
        · rw [hoff.2.1] at h
          cases h
      mediumOn := fun h => by
        dsimp only at h ⊢
        rw [if_pos h]
        rfl
      big := fun h => by
        obtain ⟨c1, c2⟩ := b1 h
        refine ⟨?_, c2⟩
        have : (fun p => False ∧ 2 ^ e * 5 < p) = (fun _ : ℕ => False) := by
          funext p
          simp
        dsimp only
        rw [this]
        exact c1
      bigOn := b2
      ssz := rfl
      low30 := by dsimp only; omega
      lowStop := by dsimp only; omega
      first := .inr (by dsimp only; omega)
      high := rfl }

/-! ## crossOff -/

/-- Passing one array through a crossing-off algorithm whose primes are proper divisors. -/
structure Sieved (L n stop : ℕ) (D : ℕ → Prop) (S S' : Vec Byte) : Prop where
  size : S'.size = S.size
  sub : ∀ i < S.size, ∀ k < 8, bitAt S' i k = true → bitAt S i k = true
  sound : ∀ i < S.size, ∀ k < 8, bitAt S i k = true → bitAt S' i k = false → ¬ (L + 30 * i + bv k).Prime
  complete : ∀ i < S.size, ∀ k < 8, i < n → L + 30 * i + bv k ≤ stop → ∀ p, D p → ∀ c, p ≤ c → c.Coprime 210 →
    L + 30 * i + bv k = p * c → bitAt S' i k = false

theorem Crossed.sieved {m L n stop : ℕ} {D : ℕ → Prop} {S S' : Vec Byte} (h : Crossed m L 0 n stop D S S')
    (hD : ∀ p, D p → 1 < p) (hm : m ∣ 210) : Sieved L n stop D S S' where
  size := h.size
  sub := h.sub
  sound := fun i hi k hk h1 h2 hp => by
    obtain ⟨p, hp1, c, c1, c2, c3⟩ := h.sound i hi k hk h1 h2
    rw [c3] at hp
    have := hD p hp1
    exact Nat.not_prime_mul (by omega) (by omega) hp
  complete := fun i hi k hk h1 h2 p hp c c1 c2 c3 =>
    h.complete i hi k hk (Nat.zero_le _) h1 h2 ⟨p, hp, c, c1, Nat.Coprime.coprime_dvd_right hm c2, c3⟩

theorem Sieved.none {L n stop : ℕ} {D : ℕ → Prop} {S : Vec Byte} (h : ∀ p, ¬ D p) : Sieved L n stop D S S where
  size := rfl
  sub := fun _ _ _ _ h => h
  sound := fun _ _ _ _ h h' => by rw [h] at h'; cases h'
  complete := fun _ _ _ _ _ _ p hp => absurd hp (h p)

theorem Sieved.trans {L n stop : ℕ} {D E : ℕ → Prop} {S S' S'' : Vec Byte} (h : Sieved L n stop D S S')
    (h' : Sieved L n stop E S' S'') : Sieved L n stop (fun p => D p ∨ E p) S S'' where
  size := h'.size.trans h.size
  sub := fun i hi k hk hb => h.sub i hi k hk (h'.sub i (h.size ▸ hi) k hk hb)
  sound := fun i hi k hk h1 h2 => by
    cases hb : bitAt S' i k
    · exact h.sound i hi k hk h1 hb
    · exact h'.sound i (h.size ▸ hi) k hk hb h2
  complete := fun i hi k hk h1 h2 p hp c c1 c2 c3 => by
    rcases hp with hp | hp
    · have h3 := h.complete i hi k hk h1 h2 p hp c c1 c2 c3
      by_contra hc
      have h4 := h'.sub i (h.size ▸ hi) k hk (by simpa using hc)
      rw [h3] at h4
      cases h4
    · exact h'.complete i (h.size ▸ hi) k hk h1 h2 p hp c c1 c2 c3

theorem Sieved.congr {L n stop : ℕ} {D E : ℕ → Prop} {S S' : Vec Byte} (h : Sieved L n stop D S S')
    (hDE : ∀ p, E p → D p) : Sieved L n stop E S S' :=
  { h with complete := fun i hi k hk h1 h2 p hp => h.complete i hi k hk h1 h2 p (hDE p hp) }

theorem Erat_crossOff_ok {er : Erat} {L e : ℕ} {D : ℕ → Prop} {S : Vec Byte} (hf : Fixed er e D)
    (hp : Parts er L e D) (hS : S.size = 2 ^ e) (hn : er.sieveSize ≤ 2 ^ e) :
    Ok (er.crossOff S) (fun r => Sieved L er.sieveSize er.stop D S r.sieve ∧
      (er.sieveSize = 2 ^ e → Parts r (L + 30 * 2 ^ e) e D) ∧
      r = { er with small := r.small, medium := r.medium, big := r.big, sieve := r.sieve }) := by
  have hpr := pow_range hf.he
  have hsm := hf.smallMax
  have hmm := hf.mediumMax
  have hD : ∀ p, D p → 1 < p ∧ p ≤ Nat.sqrt er.stop ∧ er.maxPreSieve < p := fun p h => by
    obtain ⟨h1, h2, h3⟩ := hf.primes p h
    exact ⟨h1.one_lt, Nat.le_sqrt.2 h3, h2⟩
  have hsq32 : Nat.sqrt er.stop < 2 ^ 32 := by
    rw [Nat.sqrt_lt']
    exact lt_of_lt_of_le hf.stopLt (by norm_num)
  unfold Erat.crossOff
  -- EratSmall
  refine Ok.bind (P := fun a => (a.1.enabled = true → er.sieveSize = 2 ^ e →
      Handles W30 (L + 30 * 2 ^ e) er.stop (fun p => D p ∧ p ≤ er.maxEratSmall) (vmem a.1.primes) ∧
      a.1.stop = er.stop ∧ 0 < a.1.l1CacheSize) ∧ a.1.enabled = er.small.enabled ∧
      Sieved L er.sieveSize er.stop (fun p => D p ∧ p ≤ er.maxEratSmall) S a.2)
    (Ok.ite (fun hc => ?_) (fun hc => ?_)) (fun a ha => ?_)
  · obtain ⟨h1, h2, h3⟩ := hp.small hc
    rw [← h2] at h1
    refine Ok.mono (EratSmall_crossOff_ok (n := er.sieveSize) (by rw [hS]; exact hn) h3 h1 (fun p hp => ?_))
      (fun r hr => ?_)
    · have := hp.2
      unfold spMax
      omega
    · obtain ⟨r1, r2, r3⟩ := hr
      rw [h2] at r1 r2
      refine ⟨fun _ hh => ⟨by rw [← hh]; exact r1, by rw [r3]; exact h2, by rw [r3]; exact h3⟩, by rw [r3],
        r2.sieved (fun p hp => (hD p hp.1).1) (by norm_num)⟩
  · refine Ok.pure ⟨fun h => absurd h hc, rfl, Sieved.none (fun p hp' => hc (hp.smallOn ?_))⟩
    have := hD p hp'.1
    omega
  obtain ⟨a1, a2, a3⟩ := ha
  -- EratMedium
  refine Ok.bind (P := fun b => (b.1.enabled = true → er.sieveSize = 2 ^ e →
      Handles W30 (L + 30 * 2 ^ e) er.stop (fun p => D p ∧ er.maxEratSmall < p ∧ p ≤ er.maxEratMedium) (bmem b.1.buckets) ∧
      Sorted b.1.buckets ∧ b.1.stop = er.stop) ∧ b.1.enabled = er.medium.enabled ∧
      Sieved L er.sieveSize er.stop (fun p => D p ∧ er.maxEratSmall < p ∧ p ≤ er.maxEratMedium) a.2 b.2)
    (Ok.ite (fun hc => ?_) (fun hc => ?_)) (fun b hb => ?_)
  · obtain ⟨h1, h2, h3⟩ := hp.medium hc
    rw [← h3] at h1
    refine Ok.mono (EratMedium_crossOff_ok (n := er.sieveSize) (by rw [a3.size, hS]; exact hn) h1 h2 (fun p hp => ?_))
      (fun r hr => ?_)
    · have := hp.2
      unfold spMax
      omega
    · obtain ⟨r1, r2, r3, r4⟩ := hr
      rw [h3] at r1 r3
      refine ⟨fun _ hh => ⟨by rw [← hh]; exact r1, r2, by rw [r4]; exact h3⟩, by rw [r4],
        r3.sieved (fun p hp => (hD p hp.1).1) (by norm_num)⟩
  · refine Ok.pure ⟨fun h => absurd h hc, rfl, Sieved.none (fun p hp' => hc (hp.mediumOn ?_))⟩
    have := hD p hp'.1
    have := hp'.2
    omega
  obtain ⟨b1, b2, b3⟩ := hb
  -- EratBig
  refine Ok.bind (P := fun c => (c.1.enabled = true → er.sieveSize = 2 ^ e →
      BigOK (L + 30 * 2 ^ e) e (Nat.sqrt er.stop) (fun p => D p ∧ er.maxEratMedium < p) c.1 ∧
      c.1.stop = er.stop) ∧ c.1.enabled = er.big.enabled ∧
      Sieved L er.sieveSize er.stop (fun p => D p ∧ er.maxEratMedium < p) b.2 c.2)
    (Ok.ite (fun hc => ?_) (fun hc => ?_)) (fun c hc => ?_)
  · obtain ⟨h1, h2⟩ := hp.big hc
    refine Ok.mono (EratBig_crossOff_ok (S := b.2) h1 hf.he.2 (by rw [b3.size, a3.size, hS]) (fun p hp => ?_) (by omega) hsq32)
      (fun r hr => ?_)
    · have := hD p hp.1
      have := hp.2
      constructor <;> omega
    · obtain ⟨r1, r2, r3⟩ := hr
      rw [h2] at r2
      have h4 := r2.sieved (fun p hp => (hD p hp.1).1) (by norm_num)
      refine ⟨fun _ hh => ⟨r1, by rw [r3]; exact h2⟩, by rw [r3], { h4 with
        complete := fun i hi k hk g1 g2 => h4.complete i hi k hk (by omega) g2 }⟩
  · refine Ok.pure ⟨fun h => absurd h hc, rfl, Sieved.none (fun p hp' => hc (hp.bigOn ?_))⟩
    have := hD p hp'.1
    have := hp'.2
    omega
  obtain ⟨c1, c2, c3⟩ := hc
  refine Ok.pure ⟨((a3.trans b3).trans c3).congr (fun p hp => ?_), fun hh => ?_, rfl⟩
  · rcases Nat.lt_or_ge er.maxEratMedium p with h1 | h1
    · exact .inr ⟨hp, h1⟩
    · rcases Nat.lt_or_ge er.maxEratSmall p with h2 | h2
      · exact .inl (.inr ⟨hp, h2, h1⟩)
      · exact .inl (.inl ⟨hp, h2⟩)
  · exact {
      small := fun h => a1 h hh
      smallOn := fun h => by dsimp only at h ⊢; rw [a2]; exact hp.smallOn h
      medium := fun h => b1 h hh
      mediumOn := fun h => by dsimp only at h ⊢; rw [b2]; exact hp.mediumOn h
      big := fun h => c1 h hh
      bigOn := fun h => by dsimp only at h ⊢; rw [c2]; exact hp.bigOn h }

/-! ## A whole segment -/

theorem unsetSmaller_ok : unsetSmaller.size = 37 ∧ ∀ r < 37, 7 ≤ r → ∀ k < 8,
    (unsetSmaller.get r).getLsbD k = decide (r ≤ bv k) := by decide +kernel

theorem unsetLarger_ok : unsetLarger.size = 37 ∧ ∀ r < 37, 7 ≤ r → ∀ k < 8,
    (unsetLarger.get r).getLsbD k = decide (bv k ≤ r) := by decide +kernel

theorem unset_bits {S : Vec Byte} {j : ℕ} (m : Byte) (hj : j < S.size) :
    Ok (unset S j m) (fun S' => S'.size = S.size ∧ ∀ i k, bitAt S' i k = (bitAt S i k && (if i = j then m.getLsbD k else true))) := by
  unfold unset
  rw [Vec.rd_ok hj]
  simp only [ok_bind]
  rw [Vec.wr_ok hj]
  refine ⟨_, rfl, Vec.size_set _ _ _, fun i k => ?_⟩
  unfold bitAt
  rw [Vec.get_set]
  by_cases h : j = i
  · subst h
    rw [if_pos ⟨rfl, hj⟩, if_pos rfl, BitVec.getLsbD_and]
  · rw [if_neg (fun hc => h hc.1), if_neg (fun hc => h hc.symm), Bool.and_true]

theorem preSieve_ok {er : Erat} {pre : PreSieve} (hpre : PreOK pre) (hm : er.maxPreSieve = pre.maxPrime)
    (hn : er.sieveSize ≤ er.sieve.size) (h0 : 0 < er.sieveSize) (h30 : er.segmentLow % 30 = 0) (hs : er.maxPreSieve < er.start)
    (hfirst : er.start < er.segmentLow ∨ er.segmentLow + byteRemainder er.start = er.start) :
    Ok (er.preSieve pre) (fun S => S.size = er.sieve.size ∧ ∀ i < er.sieveSize, ∀ k < 8,
      (bitAt S i k = true ↔ NoSmall pre.maxPrime (er.segmentLow + 30 * i + bv k) ∧
        er.start ≤ er.segmentLow + 30 * i + bv k)) := by
  unfold Erat.preSieve
  refine Ok.bind (PreSieve_copy_ok hpre hn h30) (fun S hS => ?_)
  obtain ⟨s1, s2⟩ := hS
  have hbr := byteRemainder_range er.start
  refine Ok.ite (fun hc => ?_) (fun hc => ?_)
  · rw [if_neg (by omega), pure_eq_ok]
    simp only [ok_bind]
    rw [Vec.rd_ok (by rw [unsetSmaller_ok.1]; omega)]
    simp only [ok_bind]
    refine Ok.mono (unset_bits _ (by omega)) (fun S' hS' => ⟨hS'.1.trans s1, fun i hi k hk => ?_⟩)
    rw [hS'.2, Bool.and_eq_true, s2 i hi k hk]
    refine and_congr_right fun _ => ?_
    have hb := bv_range hk
    by_cases h : i = 0
    · subst h
      rw [if_pos rfl, unsetSmaller_ok.2 _ (by omega) hbr.1 k hk, decide_eq_true_iff]
      omega
    · rw [if_neg h]
      simp only [true_iff]
      omega
  · refine Ok.pure ⟨s1, fun i hi k hk => ?_⟩
    rw [s2 i hi k hk]
    constructor
    · intro h
      exact ⟨h, by omega⟩
    · intro h
      exact h.1

theorem fill0_ok {S : Vec Byte} {i n : ℕ} (h : i + n ≤ S.size) :
    Ok (fill0 S i n) (fun S' => S'.size = S.size ∧
      ∀ x, S'.get x = if i ≤ x ∧ x < i + n then 0 else S.get x) := by
  unfold fill0
  refine Ok.mono (forUp_ok (Inv := fun k (S' : Vec Byte) => S'.size = S.size ∧
      ∀ x, S'.get x = if i ≤ x ∧ x < i + k then 0 else S.get x) ⟨rfl, fun x => ?_⟩ (Nat.zero_le _)
      ?_) (fun S' h => h)
  · rw [if_neg (by omega)]
  · rintro k S' - hk ⟨h1, h2⟩
    rw [Vec.wr_ok (by omega)]
    refine ⟨_, rfl, by simp [h1], fun x => ?_⟩
    rw [Vec.get_set, h2]
    by_cases h3 : i + k = x
    · subst h3
      rw [if_pos ⟨rfl, by omega⟩, if_pos (by omega)]
    · rw [if_neg (by omega)]
      by_cases h4 : i ≤ x ∧ x < i + k
      · rw [if_pos h4, if_pos (by omega)]
      · rw [if_neg h4, if_neg (by omega)]

/-- The content of a sieved segment with base `L`. -/
structure Seg (er : Erat) (L : ℕ) : Prop where
  low30 : L % 30 = 0
  pos : 0 < er.sieveSize
  reach : L + 30 * (er.sieveSize - 1) + 7 ≤ er.stop
  full : er.sieveSize % 8 = 0 ∨ er.stop < L + 30 * er.sieveSize + 7
  room : 8 * ((er.sieveSize + 7) / 8) ≤ er.sieve.size
  bits : ∀ i < er.sieveSize, ∀ k < 8, bitAt er.sieve i k = true ↔
    er.start ≤ L + 30 * i + bv k ∧ L + 30 * i + bv k ≤ er.stop ∧ (L + 30 * i + bv k).Prime
  pad : ∀ i, er.sieveSize ≤ i → i < 8 * ((er.sieveSize + 7) / 8) → ∀ k < 8, bitAt er.sieve i k = false

/-- What comes after base `b`: another segment, or nothing up to `stop`. -/
def Nxt (er : Erat) (e b : ℕ) (D : ℕ → Prop) : Prop :=
  (EInv er e D ∧ er.segmentLow = b) ∨ (er.segmentLow = er.stop ∧ er.stop < b + 7)

/-- After pre-sieving and crossing off, exactly the primes are left. -/
theorem segment_bits {er : Erat} {e n : ℕ} {D : ℕ → Prop} {S S' : Vec Byte} (h : EInv er e D) (hn : n ≤ 2 ^ e)
    (hall : ∀ p, p.Prime → er.maxPreSieve < p → p * p ≤ er.segmentHigh → D p)
    (hS : S.size = 2 ^ e)
    (hpre : ∀ i < n, ∀ k < 8, bitAt S i k = true ↔ NoSmall er.maxPreSieve (er.segmentLow + 30 * i + bv k) ∧
      er.start ≤ er.segmentLow + 30 * i + bv k)
    (hc : Sieved er.segmentLow n er.stop D S S') {i k : ℕ} (hi : i < n) (hk : k < 8)
    (hst : er.segmentLow + 30 * i + bv k ≤ er.stop) :
    bitAt S' i k = true ↔ er.start ≤ er.segmentLow + 30 * i + bv k ∧ (er.segmentLow + 30 * i + bv k).Prime := by
  have hb := bv_range hk
  have hcop := coprime_val (L := er.segmentLow) (i := i) h.low30 hk
  have hhigh : er.segmentLow + 30 * i + bv k ≤ er.segmentHigh := by
    rw [h.high]
    omega
  obtain ⟨h7, hms⟩ := h.pre
  generalize hv : er.segmentLow + 30 * i + bv k = v at *
  constructor
  · intro hbit
    have h1 := hc.sub i (by omega) k hk hbit
    obtain ⟨h2, h3⟩ := (hpre i hi k hk).1 h1
    rw [hv] at h2 h3
    refine ⟨h3, ?_⟩
    by_contra hnp
    have hp := Nat.minFac_prime (n := v) (by omega)
    have hd := Nat.minFac_dvd v
    have hsq : v.minFac * v.minFac ≤ v := by
      have := Nat.minFac_sq_le_self (n := v) (by omega) hnp
      rwa [pow_two] at this
    generalize hpv : v.minFac = p at *
    have hp30 : p.Coprime 30 := Nat.Coprime.coprime_dvd_left hd hcop
    have hp7 : 7 ≤ p := by
      by_contra hlt
      have h2' := hp.two_le
      have : p = 2 ∨ p = 3 ∨ p = 4 ∨ p = 5 ∨ p = 6 := by omega
      rcases this with rfl | rfl | rfl | rfl | rfl <;> revert hp30 <;> decide
    rcases Nat.lt_or_ge er.maxPreSieve p with hgt | hle
    · obtain ⟨c, hcv⟩ := hd
      have hDp := hall p hp hgt (by omega)
      have hpc : p ≤ c := by
        by_contra hlt
        have : p * c < p * p := Nat.mul_lt_mul_of_pos_left (by omega) hp.pos
        omega
      have h7v : ¬ 7 ∣ v := h2 7 Nat.prime_seven (le_refl _) h7
      have hc210 : c.Coprime 210 := by
        have hcv' : c ∣ v := ⟨p, by rw [hcv]; ring⟩
        have h30 : c.Coprime 30 := Nat.Coprime.coprime_dvd_left hcv' hcop
        have h77 : c.Coprime 7 := by
          rw [Nat.coprime_comm, Nat.prime_seven.coprime_iff_not_dvd]
          exact fun h => h7v (h.trans hcv')
        have := Nat.Coprime.mul_right h30 h77
        exact this
      have := hc.complete i (by omega) k hk hi (by rw [hv]; exact hst) p hDp c hpc hc210 (by rw [hv]; exact hcv)
      rw [hbit] at this
      cases this
    · exact h2 p hp hp7 hle hd
  · rintro ⟨h1, h2⟩
    have h3 : bitAt S i k = true := by
      rw [hpre i hi k hk, hv]
      refine ⟨fun p hp hp7 hpm hd => ?_, h1⟩
      have := (Nat.prime_dvd_prime_iff_eq hp h2).1 hd
      omega
    by_contra hf
    have hf : bitAt S' i k = false := by simpa using hf
    have := hc.sound i (by omega) k hk h3 hf
    rw [hv] at this
    exact this h2

/-- **Erat::sieveSegment.** -/
theorem sieveSegment_ok {er : Erat} {e : ℕ} {D : ℕ → Prop} {pre : PreSieve} (h : EInv er e D) (hpre : PreOK pre)
    (hm : er.maxPreSieve = pre.maxPrime)
    (hall : ∀ p, p.Prime → er.maxPreSieve < p → p * p ≤ er.segmentHigh → D p) :
    Ok (er.sieveSegment pre) (fun r => Seg r er.segmentLow ∧ Nxt r e (er.segmentLow + 30 * r.sieveSize) D ∧
      r.start = er.start ∧ r.stop = er.stop ∧ r.maxPreSieve = er.maxPreSieve) := by
  have hpr := pow_range h.he
  have hst := h.stopLt
  have hlow := h.lowStop
  unfold Erat.sieveSegment
  refine Ok.ite (fun hc => ?_) (fun hc => ?_)
  · -- the last segment
    unfold Erat.sieveLastSegment
    have hbr := byteRemainder_range er.stop
    have hbl : byteRemainder er.stop ≤ er.stop := by
      unfold byteRemainder
      split <;> omega
    have hhigh := h.high
    have h30 := h.low30
    dsimp only
    rw [csub_ok hbl]
    simp only [ok_bind]
    rw [csub_ok (by omega)]
    simp only [ok_bind]
    obtain ⟨n, hn⟩ : ∃ n, n = (er.stop - byteRemainder er.stop - er.segmentLow) / 30 + 1 := ⟨_, rfl⟩
    rw [← hn]
    have hn2 : er.segmentLow + 30 * (n - 1) + byteRemainder er.stop = er.stop := by omega
    have hne : n ≤ 2 ^ e := by omega
    have hn0 : 0 < n := by omega
    have hf : Fixed { er with sieveSize := n } e D := { h with }
    have hpa : Parts { er with sieveSize := n } er.segmentLow e D := { h with }
    refine Ok.bind (preSieve_ok (er := { er with sieveSize := n }) hpre hm (by dsimp only; rw [h.sz]; exact hne) hn0 h30
      h.pre.2 h.first) (fun S hS => ?_)
    obtain ⟨s1, s2⟩ := hS
    dsimp only at s1 s2
    refine Ok.bind (Erat_crossOff_ok hf hpa (S := S) (by rw [s1, h.sz]) hne) (fun r hr => ?_)
    obtain ⟨r1, -, r3⟩ := hr
    dsimp only at r1
    have hrs : r.sieveSize = n := by rw [r3]
    have hrl : r.segmentLow = er.segmentLow := by rw [r3]
    have hrst : r.stop = er.stop := by rw [r3]
    have hrstart : r.start = er.start := by rw [r3]
    have hrm : r.maxPreSieve = er.maxPreSieve := by rw [r3]
    rw [hrs, hrst]
    rw [Vec.rd_ok (by rw [unsetLarger_ok.1]; omega)]
    simp only [ok_bind]
    have hsz : r.sieve.size = 2 ^ e := by rw [r1.size, s1, h.sz]
    refine Ok.bind (unset_bits _ (by omega)) (fun S2 hS2 => ?_)
    refine Ok.bind (fill0_ok (by rw [hS2.1, hsz]; omega)) (fun S3 hS3 => Ok.pure ?_)
    have hbit3 : ∀ i < n, ∀ k, bitAt S3 i k = bitAt S2 i k := by
      intro i hi k
      unfold bitAt
      rw [hS3.2, if_neg (by omega)]
    refine ⟨⟨h30, by dsimp only; omega, by dsimp only; omega, .inr (by dsimp only; omega), by dsimp only; rw [hS3.1, hS2.1, hsz]; omega, fun i hi k hk => ?_,
      fun i hi1 hi2 k hk => ?_⟩, .inr ⟨rfl, ?_⟩, hrstart, rfl, hrm⟩
    · dsimp only at hi ⊢
      have hb := bv_range hk
      rw [hbit3 i hi, hS2.2, hrstart, Bool.and_eq_true]
      rcases Nat.lt_or_ge er.stop (er.segmentLow + 30 * i + bv k) with hgt | hle
      · have hin : i = n - 1 := by omega
        subst hin
        rw [if_pos rfl, unsetLarger_ok.2 _ (by omega) hbr.1 k hk, decide_eq_true_iff]
        constructor <;> rintro ⟨h1, h2⟩ <;> omega
      · rw [segment_bits h hne hall (by rw [s1, h.sz]) (by rw [hm]; exact s2) r1 hi hk hle]
        have : (if i = n - 1 then (unsetLarger.get (byteRemainder er.stop)).getLsbD k else true) = true := by
          split
          · next hin =>
            rw [unsetLarger_ok.2 _ (by omega) hbr.1 k hk, decide_eq_true_iff]
            omega
          · rfl
        rw [this]
        tauto
    · dsimp only at hi1 hi2 ⊢
      unfold bitAt
      rw [hS3.2, if_pos (by omega)]
      simp
    · dsimp only
      omega
  · have hhigh := h.high
    refine Ok.bind (preSieve_ok hpre hm (by rw [h.ssz, h.sz]) (by rw [h.ssz]; omega) h.low30
      h.pre.2 h.first) (fun S hS => ?_)
    obtain ⟨s1, s2⟩ := hS
    refine Ok.bind (Erat_crossOff_ok h.toFixed h.toParts (S := S) (by rw [s1, h.sz]) (by rw [h.ssz])) (fun r hr => Ok.pure ?_)
    obtain ⟨r1, r2, r3⟩ := hr
    have r2 := r2 h.ssz
    rw [h.ssz] at s2 r1
    have hrs : r.sieveSize = 2 ^ e := by rw [r3]; exact h.ssz
    have hrl : r.segmentLow = er.segmentLow := by rw [r3]
    have hrh : r.segmentHigh = er.segmentHigh := by rw [r3]
    have hrst : r.stop = er.stop := by rw [r3]
    have hrstart : r.start = er.start := by rw [r3]
    have hrm : r.maxPreSieve = er.maxPreSieve := by rw [r3]
    have hrsm : r.maxEratSmall = er.maxEratSmall := by rw [r3]
    have hrmm : r.maxEratMedium = er.maxEratMedium := by rw [r3]
    have hsz : r.sieve.size = 2 ^ e := by rw [r1.size, s1, h.sz]
    have hl2 : er.segmentLow + 30 * 2 ^ e + 6 < er.stop := by omega
    have ca1 : checkedAdd r.segmentLow (r.sieveSize * 30) = er.segmentLow + 30 * 2 ^ e := by
      rw [checkedAdd_lt (by rw [max64_eq, hrl, hrs]; omega), hrl, hrs, Nat.mul_comm]
    have ca2 : min (checkedAdd r.segmentHigh (r.sieveSize * 30)) r.stop =
        min (er.segmentLow + 30 * 2 ^ e + 30 * 2 ^ e + 6) er.stop := by
      rw [hrst, checkedAdd_min (le_max64 hst), hrh, hrs, hhigh]
      omega
    dsimp only
    rw [ca1, ca2]
    have hbr := byteRemainder_range er.start
    refine ⟨⟨h.low30, by dsimp only; omega, by dsimp only; omega, .inl (by dsimp only; omega), by dsimp only; omega, fun i hi k hk => ?_, fun i hi1 hi2 => ?_⟩,
      .inl ⟨?_, by dsimp only; rw [hrs]⟩, hrstart, hrst, hrm⟩
    · dsimp only at hi ⊢
      rw [hrs] at hi
      have hb := bv_range hk
      rw [segment_bits h (le_refl _) hall (by rw [s1, h.sz]) (by rw [hm]; exact s2) r1 hi hk (by omega), hrstart, hrst]
      constructor
      · rintro ⟨h1, h2⟩
        exact ⟨h1, by omega, h2⟩
      · rintro ⟨h1, -, h2⟩
        exact ⟨h1, h2⟩
    · dsimp only at hi1 hi2
      omega
    · have hfx := h.toFixed
      have hfi := h.first
      exact {
        he := hfx.he
        sz := hsz
        startLe := by dsimp only; rw [hrstart, hrst]; exact hfx.startLe
        stopLt := by dsimp only; rw [hrst]; exact hfx.stopLt
        pre := by dsimp only; rw [hrstart, hrm]; exact hfx.pre
        smallMax := by dsimp only; rw [hrsm]; exact hfx.smallMax
        mediumMax := by dsimp only; rw [hrmm]; exact hfx.mediumMax
        primes := by dsimp only; rw [hrst, hrm]; exact hfx.primes
        small := r2.small
        smallOn := r2.smallOn
        medium := r2.medium
        mediumOn := r2.mediumOn
        big := r2.big
        bigOn := r2.bigOn
        ssz := hrs
        low30 := by dsimp only; have := h.low30; omega
        lowStop := by dsimp only; omega
        first := .inl (by dsimp only; rw [hrstart]; omega)
        high := by dsimp only; rw [hrst] }

end Psv
end PS
