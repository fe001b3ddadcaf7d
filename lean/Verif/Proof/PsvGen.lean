import Verif.Proof.PsvStream

/-!
# PrimeGenerator
-/

namespace PS
namespace Psv

theorem prePrimes_mono : ∀ i < 5, ∀ j < 5, i ≤ j → prePrimes.get i ≤ prePrimes.get j := by decide +kernel

theorem prePrimes_odd : ∀ i < 5, prePrimes.get i % 2 = 1 ∧ 7 ≤ prePrimes.get i ∧ prePrimes.get i ≤ 19 := by decide +kernel

theorem sqrt_lt_32 {t : ℕ} (h : t < 2 ^ 64) : Nat.sqrt t < 2 ^ 32 := by
  rw [Nat.sqrt_lt']
  exact lt_of_lt_of_le h (by norm_num)

/-- **SievingPrimes::init** -/
theorem SP_init_ok {env : Env} {erat : Erat} {pre : PreSieve} {T : ℕ} (hpre : PreOK pre)
    (hm : pre.maxPrime = prePrimes.get (lowerBound T)) (hT : Nat.sqrt erat.stop / 100 ≤ T) (ht : erat.stop < 2 ^ 64)
    (h400 : 400 ≤ erat.stop) (hss : erat.sieveSize < 2 ^ 64) :
    Ok (({} : SievingPrimes).init env erat pre) (fun r => r.2 = pre ∧ ∃ es,
      SPInv r.1 pre.maxPrime (Nat.sqrt erat.stop) es 0 0) := by
  unfold SievingPrimes.init
  rw [isqrt_ok env ht]
  simp only [ok_bind]
  have hR := sqrt_lt_32 ht
  have hR20 : 20 ≤ Nat.sqrt erat.stop := Nat.le_sqrt.2 (by omega)
  obtain ⟨o1, o2, o3⟩ := prePrimes_odd _ (lowerBound_lt T)
  rw [← hm] at o1 o2 o3
  have hle : prePrimes.get (lowerBound (max (Nat.sqrt erat.stop - (pre.maxPrime + 1)) (Nat.sqrt (Nat.sqrt erat.stop)) / 100)) ≤
      pre.maxPrime := by
    rw [hm]
    refine prePrimes_mono _ (lowerBound_lt _) _ (lowerBound_lt _) (lowerBound_mono (le_trans (Nat.div_le_div_right ?_) hT))
    refine max_le (Nat.sub_le _ _) (Nat.sqrt_le_self _)
  have hgs : erat.getSieveSize < 2 ^ 64 := by
    unfold Erat.getSieveSize
    rw [Nat.shiftRight_eq_div_pow]
    omega
  refine Ok.bind (Erat_init_ok (er := ({} : SievingPrimes).er) ⟨rfl, rfl, rfl⟩ (by omega)
    (by omega) (by omega) hgs (.inl hpre) (by rw [max_eq_left hle]; omega)) (fun r hr => ?_)
  obtain ⟨r1, r2, r3, ⟨es, r4⟩, r5, r6, r7, r8⟩ := hr
  have r3 := r3 hle
  rw [r5, r6, isqrt_ok env (by omega)]
  simp only [ok_bind]
  refine Ok.bind (tinySieve_ok _) (fun tiny ht => Ok.pure ⟨r3, es, ?_⟩)
  have hlow : r.1.segmentLow = 0 := by
    have : byteRemainder (pre.maxPrime + 1) = pre.maxPrime + 1 := by
      unfold byteRemainder
      rw [if_neg (by omega)]
      omega
    omega
  have hpr := pow_range r4.he
  have hszz := r4.ssz
  refine ⟨⟨r5, r6, hR, by dsimp only; rw [r7, r3], rfl, ht.1, ht.2, ⟨by dsimp only; omega, by dsimp only; omega, by dsimp only; omega⟩,
    .inr ⟨?_, .inl ⟨r4.congr (fun p => ?_), hlow⟩⟩, by dsimp only; rw [Vec.size_mk']⟩, by norm_num, ⟨le_refl _, Nat.zero_le _, fun j h1 h2 => ?_,
      fun j l h1 h2 h3 => ?_, fun x h1 h2 h3 => ?_⟩⟩
  · dsimp only
    rw [hszz, max64_eq]
    omega
  · simp only [false_iff, not_and]
    intro hp h1 h2
    have : p = pre.maxPrime + 1 := by omega
    rcases hp.eq_two_or_odd with h | h <;> omega
  · exact absurd h2 (Nat.not_lt_zero _)
  · exact absurd h3 (Nat.not_lt_zero _)
  · have := h3.1
    omega

/-- What `prime_` says about the sieving primes handed out. -/
def PrimeSt (m R prime c : ℕ) : Prop :=
  (prime = 0 ∧ c = 0) ∨ (SQ m R prime ∧ c = prime) ∨ (prime = max64 ∧ ∀ x, c < x → ¬ SQ m R x)

/-- Invariant of an initialised generator for `[s, t]` that has read the numbers below `b + 7`. -/
structure GInv (g : PrimeGenerator) (s t e es b : ℕ) : Prop where
  init : g.isInit = true
  start : g.er.start = s
  stop : g.er.stop = t
  stopLt : t < 2 ^ 64
  pre : PreOK g.pre
  mpre : g.er.maxPreSieve = g.pre.maxPrime
  low : g.sieveIdx < g.er.sieveSize → g.low = u64 b
  sp : ∃ bs c, SPInv g.sp g.pre.maxPrime (Nat.sqrt t) es bs c ∧ PrimeSt g.pre.maxPrime (Nat.sqrt t) g.prime c
  pos : Pos g.er e b g.sieveIdx (fun p => SQ g.pre.maxPrime (Nat.sqrt t) p ∧ p < g.prime)

theorem maxCached : maxCachedPrime = .ok 719 := by decide +kernel

/-- **PrimeGenerator::initErat** -/
theorem G_initErat_ok {env : Env} {start stop : ℕ} (hst : stop < 2 ^ 64) (hle : max 720 start ≤ stop) :
    Ok ((PrimeGenerator.make start stop).initErat env) (fun r => ∃ e es b, GInv r (max 720 start) stop e es b ∧
      b + 7 ≤ max 720 start ∧ max 720 start ≤ b + 36 ∧ r.er.sieveSize ≤ r.sieveIdx) := by
  unfold PrimeGenerator.initErat PrimeGenerator.make
  rw [maxCached]
  simp only [ok_bind]
  rw [show 719 + 1 = 720 from rfl, if_pos hle]
  obtain ⟨T, hT⟩ : ∃ T, T = max (stop - max 720 start) (Nat.sqrt stop) / 100 := ⟨_, rfl⟩
  have hpp := prePrimes_odd _ (lowerBound_lt T)
  refine Ok.bind (Erat_init_ok (pre := ({} : PreSieve)) ⟨rfl, rfl, rfl⟩ hle hst (by omega) (getSieveSize_lt env) (.inr rfl)
    (by rw [← hT]; show max 0 _ < _; omega)) (fun r hr => ?_)
  obtain ⟨r1, r2, r3, ⟨e, r4⟩, r5, r6, r7, r8⟩ := hr
  have hpr := pow_range r4.he
  have hszz := r4.ssz
  have r2' : r.2.maxPrime = prePrimes.get (lowerBound T) := by
    rw [r2, ← hT]
    exact max_eq_right (Nat.zero_le _)
  refine Ok.bind (SP_init_ok (erat := r.1) (T := T) r1 r2' (by rw [r6, hT]; exact Nat.div_le_div_right (le_max_right _ _))
    (by omega) (by omega) (by omega)) (fun q hq => Ok.pure ?_)
  obtain ⟨q1, es, q2⟩ := hq
  rw [r6] at q2
  have hsi : r.1.sieveSize ≤ max64 := by
    rw [hszz, max64_eq]
    omega
  have hbr := byteRemainder_range (max 720 start)
  refine ⟨e, es, r.1.segmentLow, ⟨rfl, r5, r6, hst, by dsimp only; rw [q1]; exact r1, by dsimp only; rw [q1]; exact r7,
    fun h => ?_, ⟨0, 0, by dsimp only; rw [q1]; exact q2, .inl ⟨rfl, rfl⟩⟩, .inr ⟨hsi, .inl ⟨r4.congr (fun p => ?_), rfl⟩⟩⟩, by omega, by omega, hsi⟩
  · dsimp only at h
    omega
  · simp

/-- **PrimeGenerator::sieveSegment** -/
theorem G_sieveSegment_ok {env : Env} {g : PrimeGenerator} {s t e es b : ℕ} (h : GInv g s t e es b)
    (hsi : g.er.sieveSize ≤ g.sieveIdx) (hns : g.er.hasNextSegment = true) :
    Ok (g.sieveSegment env) (fun r => GInv r s t e es b ∧ r.sieveIdx < r.er.sieveSize ∧ b + 7 ≤ t) := by
  unfold Erat.hasNextSegment at hns
  rw [decide_eq_true_iff] at hns
  obtain ⟨hE, hb⟩ : EInv g.er e (fun p => SQ g.pre.maxPrime (Nat.sqrt t) p ∧ p < g.prime) ∧ g.er.segmentLow = b := by
    rcases h.pos with ⟨h1, -⟩ | ⟨-, h1 | h1⟩
    · omega
    · exact h1
    · omega
  have hls := hE.lowStop
  have hhigh := hE.high
  have hst := h.stop
  have htl := h.stopLt
  obtain ⟨m, hm⟩ : ∃ m, m = g.pre.maxPrime := ⟨_, rfl⟩
  obtain ⟨R, hR⟩ : ∃ R, R = Nat.sqrt t := ⟨_, rfl⟩
  rw [← hm, ← hR] at hE
  have hR32 := sqrt_lt_32 htl
  rw [← hR] at hR32
  obtain ⟨bs, c, hsp, hps⟩ := h.sp
  rw [← hm, ← hR] at hsp hps
  unfold PrimeGenerator.sieveSegment
  rw [isqrt_ok env (by omega)]
  simp only [ok_bind]
  obtain ⟨H, hH⟩ : ∃ H, H = Nat.sqrt g.er.segmentHigh := ⟨_, rfl⟩
  rw [← hH]
  have hHR : H ≤ R := by
    rw [hH, hR]
    exact Nat.sqrt_le_sqrt (by omega)
  -- fetch the first sieving prime
  refine Ok.bind (P := fun (r : PrimeGenerator) => r = { g with sieveIdx := 0, low := g.er.segmentLow, prime := r.prime, sp := r.sp } ∧
    r.prime ≠ 0 ∧ (∃ bs c, SPInv r.sp m R es bs c ∧ PrimeSt m R r.prime c) ∧
    EInv r.er e (fun p => SQ m R p ∧ p < r.prime)) (Ok.ite (fun hz => ?_) (fun hz => ?_)) (fun g1 hg1 => ?_)
  · have hc : c = 0 := by
      rcases hps with h1 | h1 | h1
      · exact h1.2
      · rw [hz] at h1
        exact absurd h1.1.2.2 Nat.not_prime_zero
      · rw [hz, max64_eq] at h1
        omega
    subst hc
    refine Ok.bind (SP_next_ok hsp h.pre hm.symm) (fun r hr => Ok.pure ⟨rfl, ?_⟩)
    rcases hr with ⟨h1, b', h2⟩ | ⟨h1, h2, b', h3⟩
    · refine ⟨by dsimp only; have := h1.1; omega, ⟨b', r.1, h2, .inr (.inl ⟨h1.2.1, rfl⟩)⟩, hE.congr (fun p => ?_)⟩
      constructor
      · intro h; omega
      · rintro ⟨h3, h4⟩
        have := h1.2.2 p h3.2.2.pos h3
        dsimp only at h4
        omega
    · refine ⟨by dsimp only; rw [h2, max64_eq]; norm_num, ⟨b', 0, h3, .inr (.inr ⟨h2, h1⟩)⟩, hE.congr (fun p => ?_)⟩
      constructor
      · intro h; omega
      · rintro ⟨h3, h4⟩
        exact absurd h3 (h1 p h3.2.2.pos)
  · exact Ok.pure ⟨rfl, hz, ⟨bs, c, hsp, hps⟩, hE⟩
  obtain ⟨g1a, g1b, g1c, g1d⟩ := hg1
  refine Ok.bind (P := fun (r : PrimeGenerator) => ∃ er', r = { g with sieveIdx := 0, low := g.er.segmentLow, prime := r.prime, sp := r.sp, er := er' } ∧
    er' = { g.er with small := er'.small, medium := er'.medium, big := er'.big } ∧
    H < r.prime ∧ (∃ bs c, SPInv r.sp m R es bs c ∧ PrimeSt m R r.prime c) ∧
    EInv er' e (fun p => SQ m R p ∧ p < r.prime)) ?_ (fun g2 hg2 => ?_)
  · refine loop_ok (Inv := fun (r : PrimeGenerator) => ∃ er', r = { g with sieveIdx := 0, low := g.er.segmentLow, prime := r.prime, sp := r.sp, er := er' } ∧
      er' = { g.er with small := er'.small, medium := er'.medium, big := er'.big } ∧
      r.prime ≠ 0 ∧ (∃ bs c, SPInv r.sp m R es bs c ∧ PrimeSt m R r.prime c) ∧
      EInv er' e (fun p => SQ m R p ∧ p < r.prime)) (v := fun r => H + 1 - r.prime) _
      ⟨g1.er, by rw [g1a], by rw [g1a], g1b, g1c, g1d⟩ (by omega) ?_
    rintro g2 ⟨er', k1, k2, k3, ⟨bs, c, k4, k5⟩, k6⟩
    have ke : g2.er = er' := by rw [k1]
    have kp : g2.pre = g.pre := by rw [k1]
    refine Ok.ite (fun hc => ?_) (fun hc => Ok.pure ⟨er', k1, k2, by omega, ⟨bs, c, k4, k5⟩, k6⟩)
    obtain ⟨hq, hcc⟩ : SQ m R g2.prime ∧ c = g2.prime := by
      rcases k5 with h1 | h1 | h1
      · exact absurd h1.1 k3
      · exact h1
      · rw [h1.1, max64_eq] at hc
        omega
    subst hcc
    have e1 : er'.maxPreSieve = m := by rw [k2, hm]; exact h.mpre
    have e2 : er'.segmentHigh = g.er.segmentHigh := by rw [k2]
    rw [ke]
    refine Ok.bind (addSievingPrime_ok k6 hq.2.2 (by rw [e1]; exact hq.1) (by rw [e2, ← Nat.le_sqrt]; omega)) (fun er2 her2 => ?_)
    refine Ok.bind (SP_next_ok k4 (by rw [kp]; exact h.pre) (by rw [kp]; exact hm.symm)) (fun r hr => Ok.pure ?_)
    have hex : er2 = { g.er with small := er2.small, medium := er2.medium, big := er2.big } := by
      rw [her2.2, k2]
    have hgx : ({ g2 with er := er2, prime := r.1, sp := r.2 } : PrimeGenerator) =
        { g with sieveIdx := 0, low := g.er.segmentLow, prime := r.1, sp := r.2, er := er2 } := by
      rw [k1]
    rw [hgx]
    rcases hr with ⟨h1, b', h2⟩ | ⟨h1, h2, b', h3⟩
    · refine ⟨⟨er2, rfl, hex, by dsimp only; have := h1.1; omega, ⟨b', r.1, h2, .inr (.inl ⟨h1.2.1, rfl⟩)⟩, her2.1.congr (fun p => ?_)⟩,
        by dsimp only; have := h1.1; omega⟩
      have hlt := h1.1
      constructor
      · rintro (⟨h3, h4⟩ | rfl)
        · exact ⟨h3, by dsimp only; omega⟩
        · exact ⟨hq, hlt⟩
      · rintro ⟨h3, h4⟩
        dsimp only at h4
        rcases lt_trichotomy p g2.prime with h5 | h5 | h5
        · exact .inl ⟨h3, h5⟩
        · exact .inr h5
        · have := h1.2.2 p h5 h3
          omega
    · refine ⟨⟨er2, rfl, hex, by dsimp only; rw [h2, max64_eq]; norm_num, ⟨b', g2.prime, h3, .inr (.inr ⟨h2, h1⟩)⟩, her2.1.congr (fun p => ?_)⟩,
        by dsimp only; rw [h2, max64_eq]; omega⟩
      constructor
      · rintro (⟨h3, h4⟩ | rfl)
        · exact ⟨h3, by dsimp only; rw [h2, max64_eq]; have := h3.2.1; omega⟩
        · exact ⟨hq, by dsimp only; rw [h2, max64_eq]; omega⟩
      · rintro ⟨h3, h4⟩
        rcases lt_trichotomy p g2.prime with h5 | h5 | h5
        · exact .inl ⟨h3, h5⟩
        · exact .inr h5
        · exact absurd h3 (h1 p h5)
  · obtain ⟨er', k1, k2, k3, ⟨bs, c, k4, k5⟩, k6⟩ := hg2
    have e1 : er'.maxPreSieve = m := by rw [k2, hm]; exact h.mpre
    have e2 : er'.segmentHigh = g.er.segmentHigh := by rw [k2]
    have e3 : er'.segmentLow = b := by rw [k2]; exact hb
    have e4 : er'.start = s := by rw [k2]; exact h.start
    have e5 : er'.stop = t := by rw [k2]; exact h.stop
    have ke : g2.er = er' := by rw [k1]
    have kp : g2.pre = g.pre := by rw [k1]
    rw [ke, kp]
    refine Ok.bind (sieveSegment_ok k6 h.pre (by rw [e1, hm]) (fun p hp hpm hsq => ⟨⟨by omega, ?_, hp⟩, ?_⟩)) (fun r hr => Ok.pure ?_)
    · rw [hR, Nat.le_sqrt]
      omega
    · rw [e2, ← Nat.le_sqrt, ← hH] at hsq
      omega
    · obtain ⟨r1, r2, r3, r4, r5⟩ := hr
      rw [e3] at r1 r2
      have r1p := r1.pos
      have f1 : g2.isInit = true := by rw [k1]; exact h.init
      have f2 : g2.sieveIdx = 0 := by rw [k1]
      have f3 : g2.low = b := by rw [k1]; exact hb
      refine ⟨⟨f1, by dsimp only; omega, by dsimp only; omega, htl, h.pre, by dsimp only; omega, fun _ => ?_,
        ⟨bs, c, by dsimp only; rw [← hm, ← hR]; exact k4, by dsimp only; rw [← hm, ← hR]; exact k5⟩, .inl ⟨by dsimp only; omega, by dsimp only; omega, b, by dsimp only; omega, r1, ?_⟩⟩,
        by dsimp only; omega, by omega⟩
      · dsimp only
        rw [f3]
        unfold u64
        omega
      · dsimp only
        rw [← hm, ← hR]
        exact r2

end Psv
end PS
