import Verif.Proof.PsvBig
import Mathlib.Data.Nat.Prime.Basic
import Mathlib.Data.Nat.Sqrt

/-!
# isqrt and the pre-sieve
-/

namespace PS
namespace Psv

/-! ## isqrt -/

theorem isqrt_ok (env : Env) {x : ℕ} (hx : x < 2 ^ 64) : isqrt env x = .ok (Nat.sqrt x) := by
  apply Ok.eq
  unfold isqrt
  refine Ok.bind (P := fun r => r * r ≤ x) (loop_ok (fun _ : ℕ => True) (fun r => r) _ trivial (Nat.lt_succ_self _)
    (fun r _ => ?_)) (fun r hr => ?_)
  · split
    · next h =>
      have : r ≠ 0 := by
        rintro rfl
        omega
      exact Ok.ok ⟨trivial, by omega⟩
    · next h => exact Ok.ok (by omega)
  · refine loop_ok (fun r : ℕ => r * r ≤ x) (fun r => x + 1 - r) _ hr (by omega) (fun r hr => ?_)
    have hrx : r ≤ x := le_trans (Nat.le_mul_self r) hr
    split
    · next h => exact Ok.ok ⟨by nlinarith [Nat.sub_add_cancel hr], by omega⟩
    · next h =>
      refine Ok.ok ?_
      refine (Nat.eq_sqrt.2 ⟨hr, ?_⟩)
      nlinarith [Nat.sub_add_cancel hr]

/-! ## The pre-sieve buffer -/

/-- `n` has no prime factor in `7 .. m`. -/
def NoSmall (m n : ℕ) : Prop := ∀ p, p.Prime → 7 ≤ p → p ≤ m → ¬ p ∣ n

/-- A pre-sieve object with its buffer. -/
structure PreOK (s : PreSieve) : Prop where
  idx : ∃ i < 5, s.maxPrime = prePrimes.get i ∧ s.primeProduct = primeProducts.get i
  prod : s.primeProduct = 30 * s.size
  bsize : s.buffer.size = s.size
  bits : ∀ i < s.size, ∀ k < 8, bitAt s.buffer i k = true ↔ NoSmall s.maxPrime (s.primeProduct + 30 * i + bv k)

theorem pre_tables : ∀ i < 5, 7 ≤ prePrimes.get i ∧ prePrimes.get i ≤ 19 ∧ primeProducts.get i % 30 = 0 ∧
    prePrimes.get i * prePrimes.get i < primeProducts.get i ∧ primeProducts.get i < 10000000 ∧
    210 ≤ primeProducts.get i ∧ (prePrimes.get i).Coprime 30 ∧
    (∀ p ≤ prePrimes.get i, 7 ≤ p → (∃ j < 5, p = prePrimes.get j) → p ∣ primeProducts.get i) := by
  decide +kernel

theorem pre_primes_fin : ∀ p < 20, 7 ≤ p → (p.Prime ↔ ∃ j < 5, p = prePrimes.get j) := by decide +kernel

theorem pre_primes {p : ℕ} (h7 : 7 ≤ p) (h19 : p ≤ 19) : p.Prime ↔ ∃ j < 5, p = prePrimes.get j :=
  pre_primes_fin p (by omega) h7

theorem pre_sizes : prePrimes.size = 5 ∧ primeProducts.size = 5 := by decide +kernel

/-- The primes of the buffer. -/
def DPre (i p : ℕ) : Prop := p.Prime ∧ 7 ≤ p ∧ p ≤ prePrimes.get i

theorem DPre_dvd {i p : ℕ} (hi : i < 5) (h : DPre i p) : p ∣ primeProducts.get i := by
  obtain ⟨h1, h2, h3⟩ := h
  have ht := pre_tables i hi
  exact ht.2.2.2.2.2.2.2 p h3 h2 ((pre_primes h2 (by omega)).1 h1)

theorem initBuffer_ok {i : ℕ} (hi : i < 5) :
    Ok (PreSieve.initBuffer (prePrimes.get i) (primeProducts.get i)) (fun s => PreOK s ∧ s.maxPrime = prePrimes.get i) := by
  obtain ⟨t1, t2, t3, t4, t5, t6, t7, t8⟩ := pre_tables i hi
  unfold PreSieve.initBuffer
  dsimp only
  generalize hq : primeProducts.get i = Q at *
  refine Ok.bind (P := fun s => Handles W30 Q (Q * 2) (DPre i) (vmem s.primes) ∧ s.stop = Q * 2 ∧ s.l1CacheSize = Q / 30)
    (Ok.mono (forUp_ok (Inv := fun j (s : EratSmall) => Handles W30 Q (Q * 2)
      (fun p => DPre i p ∧ ∃ l < j, p = prePrimes.get l) (vmem s.primes) ∧ s.stop = Q * 2 ∧ s.l1CacheSize = Q / 30)
      ?_ (by omega) ?_) ?_) ?_
  · refine ⟨⟨?_, ?_⟩, rfl, rfl⟩
    · rintro s ⟨j, hj, -⟩
      have : (EratSmall.init {} (Q * 2) (Q / 30)).primes.size = 0 := rfl
      omega
    · rintro p ⟨-, l, hl, -⟩
      omega
  · rintro j s - hj ⟨h1, h2, h3⟩
    rw [Vec.rd_ok (by rw [pre_sizes.1]; exact hj)]
    simp only [ok_bind]
    obtain ⟨u1, u2, u3, u4, u5, u6, u7, u8⟩ := pre_tables j hj
    have hpr : (prePrimes.get j).Prime := (pre_primes u1 u2).2 ⟨j, hj, rfl⟩
    refine Ok.ite (fun hc => ?_) (fun hc => ?_)
    · rw [← h2] at h1
      refine Ok.mono (EratSmall_add_ok h1 u7 (by omega) (by omega) t3 (by omega) (by rw [h2]; omega) ?_)
        (fun r hr => ?_)
      · have : prePrimes.get j * prePrimes.get j ≤ 19 * 19 := Nat.mul_le_mul u2 u2
        omega
      · obtain ⟨r1, r2⟩ := hr
        rw [h2] at r1
        refine ⟨?_, by rw [r2]; exact h2, by rw [r2]; exact h3⟩
        have e : (fun p => (DPre i p ∧ ∃ l < j, p = prePrimes.get l) ∨ p = prePrimes.get j) =
            (fun p => DPre i p ∧ ∃ l < j + 1, p = prePrimes.get l) := by
          funext p
          apply propext
          constructor
          · rintro (⟨h4, l, hl, h5⟩ | h4)
            · exact ⟨h4, l, by omega, h5⟩
            · exact ⟨⟨by rw [h4]; exact hpr, by omega, by omega⟩, j, by omega, h4⟩
          · rintro ⟨h4, l, hl, h5⟩
            rcases Nat.lt_succ_iff_lt_or_eq.1 hl with hl | hl
            · exact .inl ⟨h4, l, hl, h5⟩
            · subst hl
              exact .inr h5
        rw [e] at r1
        exact r1
    · refine Ok.pure ⟨⟨fun s' hs' => ?_, fun p hp => ?_⟩, h2, h3⟩
      · obtain ⟨a1, a2, l, hl, a3⟩ := h1.entry s' hs'
        exact ⟨a1, a2, l, by omega, a3⟩
      · obtain ⟨a1, l, hl, a2⟩ := hp
        refine h1.all p ⟨a1, l, ?_, a2⟩
        by_contra hc2
        have : l = j := by omega
        subst this
        exact hc (a2 ▸ a1.2.2)
  · rintro s ⟨h1, h2, h3⟩
    have e : (fun p => DPre i p ∧ ∃ l < 5, p = prePrimes.get l) = DPre i := by
      funext p
      apply propext
      refine ⟨fun h => h.1, fun h => ⟨h, (pre_primes h.2.1 (by have := h.2.2; omega)).1 h.1⟩⟩
    rw [e] at h1
    exact ⟨h1, h2, h3⟩
  · rintro s ⟨h1, h2, h3⟩
    rw [← h2] at h1
    refine Ok.bind (EratSmall_crossOff_ok (L := Q) (n := Q / 30) (S := Vec.mk' (Q / 30) 0xff) (by rw [Vec.size_mk'])
      (by rw [h3]; omega) h1 (fun p hp => ?_)) (fun r hr => Ok.pure ?_)
    · have := hp.2.2
      unfold spMax
      omega
    · obtain ⟨-, r2, -⟩ := hr
      rw [h2] at r2
      refine ⟨⟨⟨i, hi, rfl, hq.symm⟩, by dsimp only; omega, by dsimp only; rw [r2.size, Vec.size_mk'], fun j hj k hk => ?_⟩, rfl⟩
      dsimp only at hj ⊢
      have hbk := bv_range hk
      have hcop := coprime_val (L := Q) (i := j) t3 hk
      have hbit : bitAt (Vec.mk' (Q / 30) 0xff) j k = true := by
        unfold bitAt
        rw [Vec.get_mk' _ _ _ hj]
        exact (by decide : ∀ k < 8, BitVec.getLsbD (255 : Byte) k = true) k hk
      constructor
      · intro hb p hp h7 hm hd
        have hle : Q + 30 * j + bv k ≤ Q * 2 := by
          by_contra hc
          have he : Q + 30 * j + bv k = Q * 2 + 1 := by omega
          rw [he] at hd
          have h8 : p ∣ Q := by rw [← hq]; exact DPre_dvd hi ⟨hp, h7, hm⟩
          have := (Nat.dvd_add_right (h8.mul_right 2)).1 hd
          have := Nat.le_of_dvd (by norm_num) this
          omega
        obtain ⟨c, hc⟩ := hd
        have h9 := r2.complete j (by rw [Vec.size_mk']; exact hj) k hk (Nat.zero_le _) hj hle
          ⟨p, ⟨hp, h7, hm⟩, c, ?_, ?_, hc⟩
        · rw [hb] at h9
          cases h9
        · by_contra hlt
          have h10 : p * c ≤ p * p := Nat.mul_le_mul_left _ (by omega)
          have h11 : p * p ≤ prePrimes.get i * prePrimes.get i := Nat.mul_le_mul hm hm
          omega
        · rw [hc] at hcop
          exact Nat.Coprime.coprime_dvd_left (Dvd.intro_left p rfl) hcop
      · intro hn
        by_contra hb
        have hb : bitAt r.2 j k = false := by simpa using hb
        obtain ⟨p, ⟨h4, h5, h6⟩, c, h7, h8, h9⟩ := r2.sound j (by rw [Vec.size_mk']; exact hj) k hk hbit hb
        exact hn p h4 h5 h6 ⟨c, h9⟩

theorem lowerBound_lt (t : ℕ) : lowerBound t < 5 := by
  unfold lowerBound
  cases h : (List.range 4).find? (fun i => decide (t ≤ primeProducts.get i)) with
  | none => simp
  | some j =>
    have := List.mem_of_find?_eq_some h
    simp at this ⊢
    omega

theorem lowerBound_mono {t t' : ℕ} (h : t ≤ t') : lowerBound t ≤ lowerBound t' := by
  have hs : ∀ t, lowerBound t = if t ≤ 210 then 0 else if t ≤ 2310 then 1 else if t ≤ 30030 then 2 else
      if t ≤ 510510 then 3 else 4 := by
    intro t
    have e : ∀ j < 4, primeProducts.get j = [210, 2310, 30030, 510510].getD j 0 := by decide +kernel
    unfold lowerBound
    rw [show List.range 4 = [0, 1, 2, 3] from rfl]
    simp only [List.find?_cons, List.find?_nil, e 0 (by omega), e 1 (by omega), e 2 (by omega), e 3 (by omega)]
    simp only [List.getD_cons_zero, List.getD_cons_succ]
    repeat' split
    all_goals simp_all
  rw [hs, hs]
  repeat' split
  all_goals omega

theorem PreSieve_init_ok (env : Env) {s : PreSieve} {start stop : ℕ} (hs : PreOK s ∨ s.maxPrime = 0) (h : start ≤ stop)
    (hst : stop < 2 ^ 64) :
    Ok (s.init env start stop) (fun r => PreOK r ∧
      r.maxPrime = max s.maxPrime (prePrimes.get (lowerBound (max (stop - start) (Nat.sqrt stop) / 100))) ∧
      (prePrimes.get (lowerBound (max (stop - start) (Nat.sqrt stop) / 100)) ≤ s.maxPrime → r = s)) := by
  unfold PreSieve.init
  rw [csub_ok h, isqrt_ok env hst]
  simp only [ok_bind]
  have hlb := lowerBound_lt (max (stop - start) (Nat.sqrt stop) / 100)
  rw [Vec.rd_ok (by rw [pre_sizes.1]; exact hlb)]
  simp only [ok_bind]
  refine Ok.ite (fun hc => ?_) (fun hc => ?_)
  · rw [Vec.rd_ok (by rw [pre_sizes.2]; exact hlb)]
    simp only [ok_bind]
    refine Ok.mono (initBuffer_ok hlb) (fun r hr => ⟨hr.1, by rw [hr.2]; omega, fun hle => by omega⟩)
  · refine Ok.pure ⟨?_, by omega, fun _ => rfl⟩
    rcases hs with hs | hs
    · exact hs
    · have := (pre_tables _ hlb).1
      omega

/-! ## Copying the buffer -/

theorem copyN_ok {B : Vec Byte} {i n j : ℕ} {S : Vec Byte} (hi : i + n ≤ B.size) (hj : j + n ≤ S.size) :
    Ok (copyN B i n S j) (fun S' => S'.size = S.size ∧
      ∀ x, S'.get x = if j ≤ x ∧ x < j + n then B.get (i + (x - j)) else S.get x) := by
  unfold copyN
  refine Ok.mono (forUp_ok (Inv := fun k (S' : Vec Byte) => S'.size = S.size ∧
      ∀ x, S'.get x = if j ≤ x ∧ x < j + k then B.get (i + (x - j)) else S.get x) ⟨rfl, fun x => ?_⟩ (Nat.zero_le _)
      ?_) (fun S' h => h)
  · rw [if_neg (by omega)]
  · rintro k S' - hk ⟨h1, h2⟩
    rw [Vec.rd_ok (by omega)]
    simp only [ok_bind]
    rw [Vec.wr_ok (by omega)]
    refine ⟨_, rfl, by simp [h1], fun x => ?_⟩
    rw [Vec.get_set, h2]
    by_cases h3 : j + k = x
    · subst h3
      rw [if_pos ⟨rfl, by omega⟩, if_pos (by omega), Nat.add_sub_cancel_left]
    · rw [if_neg (by omega)]
      by_cases h4 : j ≤ x ∧ x < j + k
      · rw [if_pos h4, if_pos (by omega)]
      · rw [if_neg h4, if_neg (by omega)]

theorem PreSieve_copy_ok {s : PreSieve} (hs : PreOK s) {S : Vec Byte} {n L : ℕ} (hn : n ≤ S.size) (hL : L % 30 = 0) :
    Ok (s.copy S n L) (fun S' => S'.size = S.size ∧
      ∀ i < n, ∀ k < 8, bitAt S' i k = true ↔ NoSmall s.maxPrime (L + 30 * i + bv k)) := by
  obtain ⟨i5, hi5, hm, hq⟩ := hs.idx
  obtain ⟨t1, t2, t3, t4, t5, t6, t7, t8⟩ := pre_tables i5 hi5
  have hsz : 0 < s.size := by have := hs.prod; omega
  suffices h : Ok (s.copy S n L) (fun S' => S'.size = S.size ∧
      ∀ i < n, S'.get i = s.buffer.get ((L / 30 + i) % s.size)) by
    refine Ok.mono h (fun S' hS' => ⟨hS'.1, fun i hi k hk => ?_⟩)
    have h1 := hs.bits ((L / 30 + i) % s.size) (Nat.mod_lt _ hsz) k hk
    unfold bitAt at h1 ⊢
    rw [hS'.2 i hi, h1]
    have key : ∀ p, p.Prime → 7 ≤ p → p ≤ s.maxPrime →
        (p ∣ s.primeProduct + 30 * ((L / 30 + i) % s.size) + bv k ↔ p ∣ L + 30 * i + bv k) := by
      intro p hp h7 hpm
      have hd : p ∣ s.primeProduct := by rw [hq]; exact DPre_dvd hi5 ⟨hp, h7, by omega⟩
      have hdm := Nat.div_add_mod (L / 30 + i) s.size
      have e1 : L + 30 * i + bv k = s.primeProduct * ((L / 30 + i) / s.size) +
          (30 * ((L / 30 + i) % s.size) + bv k) := by
        rw [hs.prod]
        have : 30 * s.size * ((L / 30 + i) / s.size) = 30 * (s.size * ((L / 30 + i) / s.size)) := by ring
        omega
      rw [e1, add_assoc, Nat.dvd_add_right hd, Nat.dvd_add_right (hd.mul_right _)]
    unfold NoSmall
    exact ⟨fun h p a b c d => h p a b c ((key p a b c).2 d), fun h p a b c d => h p a b c ((key p a b c).1 d)⟩
  unfold PreSieve.copy
  rw [if_neg (by rw [hq]; omega)]
  have e1 : L % s.primeProduct / 30 = (L / 30) % s.size := by
    rw [hs.prod, Nat.mod_mul_right_div_self]
  dsimp only
  rw [e1]
  have hlt := Nat.mod_lt (L / 30) hsz
  generalize hi0 : (L / 30) % s.size = i0 at *
  rw [csub_ok (by omega)]
  simp only [ok_bind]
  have hmod : ∀ x, (L / 30 + x) % s.size = (i0 + x) % s.size := fun x => by rw [Nat.add_mod, hi0, Nat.add_mod_mod]
  have hbs := hs.bsize
  refine Ok.ite (fun hc => ?_) (fun hc => ?_)
  · refine Ok.mono (copyN_ok (by omega) (by omega)) (fun S' hS' => ⟨hS'.1, fun i hi => ?_⟩)
    rw [hS'.2, if_pos (by omega), hmod, Nat.mod_eq_of_lt (by omega), Nat.sub_zero]
  · refine Ok.bind (copyN_ok (by omega) (by omega)) (fun S1 hS1 => ?_)
    refine Ok.bind (loop_ok (fun (t : ℕ × Vec Byte) => t.2.size = S.size ∧ t.1 < n ∧ (i0 + t.1) % s.size = 0 ∧
      ∀ i < t.1, t.2.get i = s.buffer.get ((L / 30 + i) % s.size)) (fun t => n - t.1)
      (fun (t : ℕ × Vec Byte) => t.2.size = S.size ∧ t.1 < n ∧ (i0 + t.1) % s.size = 0 ∧ n ≤ t.1 + s.size ∧
      ∀ i < t.1, t.2.get i = s.buffer.get ((L / 30 + i) % s.size)) ?_ ?_ ?_) (fun t ht => ?_)
    · refine ⟨hS1.1, by dsimp only; omega, ?_, fun i hi => ?_⟩ <;> dsimp only
      · rw [show i0 + (s.size - i0) = s.size by omega, Nat.mod_self]
      · dsimp only at hi
        rw [hS1.2, if_pos (by omega), hmod, Nat.mod_eq_of_lt (by omega), Nat.sub_zero]
    · dsimp only
      omega
    · rintro ⟨o, S2⟩ ⟨h1, h2, h3, h4⟩
      dsimp only at h1 h2 h3 h4 ⊢
      refine Ok.ite (fun hc2 => ?_) (fun hc2 => Ok.pure ⟨h1, h2, h3, by dsimp only; omega, h4⟩)
      refine Ok.bind (copyN_ok (by omega) (by omega)) (fun S3 hS3 => Ok.pure ⟨⟨hS3.1.trans h1, hc2, ?_, fun i hi => ?_⟩, ?_⟩) <;>
        dsimp only
      · rw [← add_assoc, Nat.add_mod_right]
        exact h3
      · dsimp only at hi
        rw [hS3.2]
        split
        · next h5 =>
          rw [hmod, show i0 + i = (i0 + o) + (i - o) by omega, Nat.add_mod, h3, Nat.zero_add, Nat.zero_add,
            Nat.mod_mod, Nat.mod_eq_of_lt (by omega)]
        · next h5 => exact h4 i (by omega)
      · omega
    · obtain ⟨h1, h2, h3, h5, h4⟩ := ht
      rw [csub_ok (by omega)]
      simp only [ok_bind]
      refine Ok.mono (copyN_ok (by omega) (by omega)) (fun S3 hS3 => ⟨hS3.1.trans h1, fun i hi => ?_⟩)
      rw [hS3.2]
      split
      · next h6 =>
        rw [hmod, show i0 + i = (i0 + t.1) + (i - t.1) by omega, Nat.add_mod, h3, Nat.zero_add, Nat.zero_add,
          Nat.mod_mod, Nat.mod_eq_of_lt (by omega)]
      · next h6 => exact h4 i (by omega)

end Psv
end PS
