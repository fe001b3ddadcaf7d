import Verif.Proof.Segment
import Verif.Proof.BinaryIndexedTree
import Verif.Props.BitSieve
import Verif.Props.Wheel
import Verif.Model.S2Hard

/-!
# The bit sieve while a segment is processed
-/

namespace PS
open Finset BitSieve FactorTable Cfg
open scoped Classical
local notation "π" => Nat.primeCounting

/-- The bits of the segment `[low, high)` mark the numbers without prime factor among the first `b - 1`. -/
structure SvOk (low high b : ℕ) (s : BitSieve) : Prop where
  odd : low % 2 = 1
  size : high - low ≤ 128 * s.sieve.size
  bits : ∀ k, low + 2 * k < high → (bit s k = true ↔ Rough (b - 1) (low + 2 * k))

theorem prm_234 : prm 2 = 3 ∧ prm 3 = 5 ∧ prm 4 = 7 := by
  have h : ∀ n, n.Prime → prm (Nat.primeCounting n) = n := fun n hn => prm_pi hn
  have h2 : Nat.primeCounting 3 = 2 := by decide +kernel
  have h3 : Nat.primeCounting 5 = 3 := by decide +kernel
  have h4 : Nat.primeCounting 7 = 4 := by decide +kernel
  refine ⟨?_, ?_, ?_⟩
  · rw [← h2]; exact h 3 (by norm_num)
  · rw [← h3]; exact h 5 (by norm_num)
  · rw [← h4]; exact h 7 (by norm_num)

/-- After sieving with 3, 5 and 7 the sum of a word fits `uint64_t` below `2^59`. -/
theorem SvOk.fits {low high b : ℕ} {s : BitSieve} (h : SvOk low high b s) (hb : 5 ≤ b) (h59 : high ≤ 2 ^ 59) :
    Fits s.sieve low ((high - low + 1) / 2) := by
  obtain ⟨p2, p3, p4⟩ := prm_234
  rcases Nat.lt_or_ge high low with hlt | hge
  · intro a b' _ hb'
    have : b' = 0 := by omega
    subst this
    simp [bsum]
  refine fits_of_rough (by omega) (fun k hk hv => ?_)
  have hr := (h.bits k (by omega)).1 hv
  have r2 := hr 2 (by omega) (by omega)
  have r3 := hr 3 (by omega) (by omega)
  have r4 := hr 4 (by omega) (by omega)
  rw [p2] at r2
  rw [p3] at r3
  rw [p4] at r4
  exact ⟨fun hc => r2 (Nat.dvd_of_mod_eq_zero hc), fun hc => r3 (Nat.dvd_of_mod_eq_zero hc), fun hc => r4 (Nat.dvd_of_mod_eq_zero hc)⟩

theorem bsum_eq_Rs {low high b t : ℕ} {s : BitSieve} (h : SvOk low high b s) (hb : 2 ≤ b) (ht : low + t ≤ high) :
    ((bsum s.sieve low 0 ((t + 1) / 2) : ℕ) : ℤ) = Rs b low (low + t) := by
  induction t with
  | zero => simp [bsum]
  | succ t ih =>
    have ih := ih (by omega)
    rw [← Rs_add (b := b) (lo := low) (mid := low + t) (hi := low + (t + 1)) (by omega) (by omega), ← ih]
    have h1 : Rs b (low + t) (low + (t + 1)) = if Rough (b - 1) (low + t) then ((low + t : ℕ) : ℤ) else 0 := by
      unfold Rs
      rw [Finset.sum_filter, ← Nat.add_assoc, Nat.Ico_succ_singleton, Finset.sum_singleton]
    rw [h1]
    by_cases he : t % 2 = 0
    · obtain ⟨k, rfl⟩ : ∃ k, t = 2 * k := ⟨t / 2, by omega⟩
      rw [show (2 * k + 1 + 1) / 2 = k + 1 by omega, show (2 * k + 1) / 2 = k by omega]
      have hbit := h.bits k (by omega)
      unfold bsum
      rw [Finset.sum_Ico_succ_top (by omega)]
      push_cast
      congr 1
      unfold bit at hbit
      by_cases hr : Rough (b - 1) (low + 2 * k)
      · rw [if_pos hr, if_pos (hbit.2 hr)]
      · rw [if_neg hr, if_neg (fun hc => hr (hbit.1 hc))]
    · rw [show (t + 1 + 1) / 2 = (t + 1) / 2 by omega, if_neg, add_zero]
      intro hr
      have := hr 1 (by omega) (by omega)
      rw [prm_one] at this
      have h2 := h.odd
      omega

theorem bsum_le_Tot {v : Vec (BitVec 64)} {low t : ℕ} : ((bsum v low 0 ((t + 1) / 2) : ℕ) : ℤ) ≤ Tot low (low + t) := by
  induction t with
  | zero => simp [bsum, Tot]
  | succ t ih =>
    rw [← Tot_add (lo := low) (mid := low + t) (hi := low + (t + 1)) (by omega) (by omega)]
    have h1 : Tot (low + t) (low + (t + 1)) = ((low + t : ℕ) : ℤ) := by
      unfold Tot
      rw [← Nat.add_assoc, Nat.Ico_succ_singleton, Finset.sum_singleton]
    rw [h1]
    by_cases he : t % 2 = 0
    · obtain ⟨k, rfl⟩ : ∃ k, t = 2 * k := ⟨t / 2, by omega⟩
      rw [show (2 * k + 1) / 2 = k by omega] at ih
      rw [show (2 * k + 1 + 1) / 2 = k + 1 by omega]
      unfold bsum at ih ⊢
      rw [Finset.sum_Ico_succ_top (by omega)]
      push_cast at ih ⊢
      split <;> omega
    · rw [show (t + 1 + 1) / 2 = (t + 1) / 2 by omega]
      omega

/-- Numbers `n` without prime factor 2, 3, 5, 7 are divisible by `p` iff they are `p` times a number coprime to 210. -/
theorem cop_of_rough {n a : ℕ} (ha : 4 ≤ a) (h : Rough a n) : Cop n := by
  rw [Wheel.cop_dvd]
  have h1 := h 1 (by omega) (by omega)
  have h2 := h 2 (by omega) (by omega)
  have h3 := h 3 (by omega) (by omega)
  have h4 := h 4 (by omega) (by omega)
  rw [prm_one] at h1
  rw [prm_2] at h2
  rw [prm_3] at h3
  rw [prm_4] at h4
  exact ⟨h1, h2, h3, h4⟩

/-- While the multiples of the `b`-th prime are crossed off: those before the `j`-th are gone. -/
def Cr (low high b j : ℕ) (s : BitSieve) : Prop :=
  ∀ k, low + 2 * k < high → (bit s k = true ↔ Rough (b - 1) (low + 2 * k) ∧ ∀ t, t < j → prm b * num t ≠ low + 2 * k)

theorem Cr.init {low high b i : ℕ} {s : BitSieve} (h : SvOk low high b s) (hf : Wheel.First (prm b) low i) :
    Cr low high b i s := by
  intro k hk
  rw [h.bits k hk]
  constructor
  · intro hr
    refine ⟨hr, fun t ht => ?_⟩
    have := hf.2 t ht
    omega
  · exact fun h => h.1

theorem Cr.step {low high b j k : ℕ} {s s' : BitSieve} (h : Cr low high b j s) (hk : prm b * num j = low + 2 * k)
    (hs : ∀ j, bit s' j = (bit s j && decide (j ≠ k))) : Cr low high b (j + 1) s' := by
  intro k' hk'
  rw [hs, Bool.and_eq_true, decide_eq_true_iff, h k' hk']
  constructor
  · rintro ⟨⟨h1, h2⟩, h3⟩
    refine ⟨h1, fun t ht => ?_⟩
    by_cases htj : t = j
    · subst htj; omega
    · exact h2 t (by omega)
  · rintro ⟨h1, h2⟩
    refine ⟨⟨h1, fun t ht => h2 t (by omega)⟩, ?_⟩
    rintro rfl
    exact h2 j (by omega) hk

theorem Cr.done {low high b j : ℕ} {s : BitSieve} (h : Cr low high b j s) (hb : 5 ≤ b) (hj : high ≤ prm b * num j)
    (hodd : low % 2 = 1) (hsz : high - low ≤ 128 * s.sieve.size) : SvOk low high (b + 1) s := by
  refine ⟨hodd, hsz, fun k hk => ?_⟩
  rw [h k hk, Nat.add_sub_cancel]
  obtain ⟨b', rfl⟩ : ∃ b', b = b' + 1 := ⟨b - 1, by omega⟩
  rw [rough_succ, Nat.add_sub_cancel]
  refine and_congr_right (fun hr => ?_)
  constructor
  · rintro h1 ⟨q, hq⟩
    have hc := cop_of_rough (by omega) hr
    rw [hq] at hc
    have hcq := (cop_mul.1 hc).2
    refine h1 (idx q) ?_ (by rw [num_idx hcq]; exact hq.symm)
    rw [← num_lt_num, num_idx hcq]
    by_contra hcon
    push Not at hcon
    have := Nat.mul_le_mul_left (prm (b' + 1)) hcon
    omega
  · intro h1 t ht he
    exact h1 ⟨num t, he.symm⟩

theorem prm_odd {b : ℕ} (hb : 2 ≤ b) : prm b % 2 = 1 := by
  refine (prm_prime b).eq_two_or_odd.resolve_left ?_
  have := prm_lt_prm (i := 1) (j := b) (by omega) (by omega)
  rw [prm_one] at this
  omega

theorem num_odd (i : ℕ) : num i % 2 = 1 := by
  have := ((Wheel.cop_dvd _).1 (cop_num i)).1
  omega

/-- The position of a multiple in the sieve. -/
theorem pos_even {low b j : ℕ} (hb : 2 ≤ b) (hodd : low % 2 = 1) (h : low ≤ prm b * num j) :
    ∃ k, prm b * num j = low + 2 * k ∧ prm b * num j - low = 2 * k := by
  have h1 : (prm b * num j) % 2 = 1 := by
    rw [Nat.mul_mod, prm_odd hb, num_odd]
  exact ⟨(prm b * num j - low) / 2, by omega, by omega⟩

theorem First.next {p high j : ℕ} (hj : high ≤ p * num j) (h : ∀ t, t < j → p * num t < high) :
    Wheel.First p high j := ⟨hj, h⟩

theorem bsum_unset {s s' : BitSieve} {low k T : ℕ} (hk : k < T) (hs : ∀ j, bit s' j = (bit s j && decide (j ≠ k))) :
    bsum s'.sieve low 0 T + (low + 2 * k) * (if bit s k then 1 else 0) = bsum s.sieve low 0 T := by
  unfold bsum
  have hm : k ∈ Ico 0 T := by simp [hk]
  rw [← Finset.add_sum_erase _ _ hm, ← Finset.add_sum_erase (Ico 0 T) (fun j => if vbit s.sieve j = true then low + 2 * j else 0) hm]
  have h1 : vbit s'.sieve k = false := by
    have := hs k
    simpa [bit] using this
  have h2 : ∑ j ∈ (Ico 0 T).erase k, (if vbit s'.sieve j = true then low + 2 * j else 0) =
      ∑ j ∈ (Ico 0 T).erase k, (if vbit s.sieve j = true then low + 2 * j else 0) := by
    apply Finset.sum_congr rfl
    intro j hj
    have := hs j
    unfold bit at this
    rw [this]
    simp [Finset.ne_of_mem_erase hj]
  rw [h2, h1]
  unfold bit
  by_cases hv : vbit s.sieve k = true <;> simp [hv, Nat.add_comm]

namespace S2Hard

/-- `cross_off` without tree. -/
theorem crossOff_ok {s : BitSieve} {low high b i : ℕ} {w : Wheel.Item} (h : SvOk low high b s) (hb : 5 ≤ b)
    (hat : Wheel.At (prm b) i w) (hf : Wheel.First (prm b) low i) (hlh : low ≤ high)
    (h63 : high + 10 * prm b < 2 ^ 63) (h62 : high + 1 ≤ 2 ^ 62) :
    Ok (crossOff s low high (prm b) w) (fun r => SvOk low high (b + 1) r.2.1 ∧ r.2.1.size = s.size ∧
      r.2.1.sieve.size = s.sieve.size ∧ (∃ j, Wheel.At (prm b) j r.2.2 ∧ Wheel.First (prm b) high j) ∧
      r.1 + (bsum r.2.1.sieve low 0 ((high - low + 1) / 2) : ℕ) = (bsum s.sieve low 0 ((high - low + 1) / 2) : ℕ)) := by
  unfold crossOff
  refine loop_ok (fun (st : ℤ × BitSieve × Wheel.Item) => ∃ j, i ≤ j ∧ Wheel.At (prm b) j st.2.2 ∧ Cr low high b j st.2.1 ∧
      (∀ t, t < j → prm b * num t < high) ∧ st.2.1.size = s.size ∧ st.2.1.sieve.size = s.sieve.size ∧
      st.1 + (bsum st.2.1.sieve low 0 ((high - low + 1) / 2) : ℕ) = (bsum s.sieve low 0 ((high - low + 1) / 2) : ℕ))
    (fun st => high - st.2.2.nextMultiple) _ ?_ (by dsimp only; omega) ?_
  · refine ⟨i, le_rfl, hat, Cr.init h hf, fun t ht => ?_, rfl, rfl, by simp⟩
    have := hf.2 t ht
    omega
  · rintro ⟨sum, s', w'⟩ ⟨j, hij, hat', hcr, hlt, hs1, hs2, hsum⟩
    dsimp only at hat' hcr hs1 hs2 hsum ⊢
    have hj : low ≤ prm b * num j := hf.1.trans (Nat.mul_le_mul_left _ (num_le_num.2 hij))
    refine Ok.ite (fun hc => ?_) (fun hc => ?_)
    · rw [hat'.1] at hc ⊢
      rw [csub_ok hj]
      simp only [ok_bind]
      obtain ⟨k, hk1, hk2⟩ := pos_even (by omega) h.odd hj
      have hk64 : k / 64 < s'.sieve.size := by
        rw [hs2]; have := h.size; omega
      rw [hk2, at_ok hk64]
      simp only [ok_bind]
      have hb1 := bsum_total (v := s.sieve) (low := low) (a := 0) (b := (high - low + 1) / 2) (by omega)
      have hb2 := bsum_total (v := s'.sieve) (low := low) (a := 0) (b := (high - low + 1) / 2) (by omega)
      have hb3 : (0 : ℤ) ≤ ((prm b * num j : ℕ) : ℤ) * (if bit s' k = true then 1 else 0) ∧
          ((prm b * num j : ℕ) : ℤ) * (if bit s' k = true then 1 else 0) < 2 ^ 62 := by
        split
        · rw [mul_one]; omega
        · rw [mul_zero]; norm_num
      rw [fitI_ok (by omega) (by omega), ok_bind]
      refine Ok.bind (unset_ok hk64) (fun s'' hs'' => ?_)
      refine Ok.bind (Wheel.step_ok hat' (by omega)) (fun w'' hw'' => Ok.pure ⟨⟨j + 1, by omega, hw'', hcr.step hk1 hs''.2.2, ?_, ?_, ?_, ?_⟩, ?_⟩)
      · intro t ht
        by_cases htj : t = j
        · subst htj; exact hc
        · exact hlt t (by omega)
      · exact hs''.1.trans hs1
      · exact hs''.2.1.trans hs2
      · rw [← hsum, ← bsum_unset (low := low) (k := k) (T := (high - low + 1) / 2) (by omega) hs''.2.2, hk1]
        push_cast
        split <;> (simp; try ring)
      · show high - w''.nextMultiple < high - prm b * num j
        rw [hw''.1]
        have := num_lt_num (a := j) (b := j + 1)
        have := Nat.mul_lt_mul_of_pos_left (show num j < num (j + 1) by omega) (prm_pos b)
        omega
    · rw [hat'.1] at hc
      exact Ok.pure ⟨hcr.done hb (by omega) h.odd (by rw [hs2]; exact h.size), hs1, hs2, ⟨j, hat', by omega, hlt⟩, hsum⟩

/-- The tree holds the sieve. -/
def TreeOk (low size : ℕ) (s : BitSieve) (t : BIT) : Prop :=
  low + 2 * size ≤ 2 ^ 63 ∧ BIT.Rep (fun i => if bit s i then ((low + 2 * i : ℕ) : ℤ) else 0) size t

/-- `cross_off` with the tree. -/
theorem crossOffTree_ok {s : BitSieve} {low high b i Sz : ℕ} {w : Wheel.Item} {t : BIT} (h : SvOk low high b s) (hb : 5 ≤ b)
    (hat : Wheel.At (prm b) i w) (hf : Wheel.First (prm b) low i) (hlh : low ≤ high) (ht : TreeOk low Sz s t)
    (hSz : high - low ≤ 2 * Sz) (h63 : high + 10 * prm b < 2 ^ 63) :
    Ok (crossOffTree s low high (prm b) w t) (fun r => SvOk low high (b + 1) r.2.1 ∧ r.2.1.size = s.size ∧
      r.2.1.sieve.size = s.sieve.size ∧ (∃ j, Wheel.At (prm b) j r.2.2 ∧ Wheel.First (prm b) high j) ∧
      TreeOk low Sz r.2.1 r.1) := by
  unfold crossOffTree
  refine loop_ok (fun (st : BIT × BitSieve × Wheel.Item) => ∃ j, i ≤ j ∧ Wheel.At (prm b) j st.2.2 ∧ Cr low high b j st.2.1 ∧
      (∀ t, t < j → prm b * num t < high) ∧ st.2.1.size = s.size ∧ st.2.1.sieve.size = s.sieve.size ∧
      TreeOk low Sz st.2.1 st.1)
    (fun st => high - st.2.2.nextMultiple) _ ?_ (by dsimp only; omega) ?_
  · refine ⟨i, le_rfl, hat, Cr.init h hf, fun t ht => ?_, rfl, rfl, ht⟩
    have := hf.2 t ht
    omega
  · rintro ⟨t', s', w'⟩ ⟨j, hij, hat', hcr, hlt, hs1, hs2, hT⟩
    dsimp only at hat' hcr hs1 hs2 hT ⊢
    have hj : low ≤ prm b * num j := hf.1.trans (Nat.mul_le_mul_left _ (num_le_num.2 hij))
    refine Ok.ite (fun hc => ?_) (fun hc => ?_)
    · rw [hat'.1] at hc ⊢
      rw [csub_ok hj]
      simp only [ok_bind]
      obtain ⟨k, hk1, hk2⟩ := pos_even (by omega) h.odd hj
      have hk64 : k / 64 < s'.sieve.size := by
        rw [hs2]; have := h.size; omega
      rw [hk2, at_ok hk64]
      simp only [ok_bind]
      refine Ok.bind (P := fun (r : BIT × BitSieve) => r.2.size = s.size ∧ r.2.sieve.size = s.sieve.size ∧
        (∀ j, bit r.2 j = (bit s' j && decide (j ≠ k))) ∧ TreeOk low Sz r.2 r.1) ?_ ?_
      · refine Ok.ite (fun hbit => ?_) (fun hbit => ?_)
        · refine Ok.bind (unset_ok hk64) (fun s'' hs'' => ?_)
          refine Ok.bind (BIT.update_ok (a' := fun i => if bit s'' i then ((low + 2 * i : ℕ) : ℤ) else 0) (BIT.small_sieve hT.1) hT.2 hj (by omega) ?_)
            (fun t'' ht'' => Ok.pure ⟨hs''.1.trans hs1, hs''.2.1.trans hs2, hs''.2.2, hT.1, ht''⟩)
          intro i
          have e : (prm b * num j - low) / 2 = k := by omega
          rw [e, hs''.2.2]
          by_cases hik : i = k
          · subst hik
            rw [hk1]; simp [hbit]
          · simp [hik]
        · refine Ok.pure ⟨hs1, hs2, fun j => ?_, hT⟩
          by_cases hjk : j = k
          · subst hjk; simpa using hbit
          · simp [hjk]
      · rintro ⟨t'', s''⟩ ⟨a1, a2, a3, a4⟩
        dsimp only at a1 a2 a3 a4 ⊢
        refine Ok.bind (Wheel.step_ok hat' (by omega)) (fun w'' hw'' => Ok.pure ⟨⟨j + 1, by omega, hw'', hcr.step hk1 a3, ?_, a1, a2, a4⟩, ?_⟩)
        · intro t ht
          by_cases htj : t = j
          · subst htj; exact hc
          · exact hlt t (by omega)
        · show high - w''.nextMultiple < high - prm b * num j
          rw [hw''.1]
          have := num_lt_num (a := j) (b := j + 1)
          have := Nat.mul_lt_mul_of_pos_left (show num j < num (j + 1) by omega) (prm_pos b)
          omega
    · rw [hat'.1] at hc
      exact Ok.pure ⟨hcr.done hb (by omega) h.odd (by rw [hs2]; exact h.size), hs1, hs2, ⟨j, hat', by omega, hlt⟩, hT⟩

/-- A query of the tree. -/
theorem tree_sum {s : BitSieve} {low high b Sz t : ℕ} {T : BIT} (h : SvOk low high b s) (hb : 2 ≤ b) (hT : TreeOk low Sz s T)
    (ht : low + t < high) (hSz : high - low ≤ 2 * Sz) : T.sum t = .ok (Rs b low (low + t + 1)) := by
  have e := bsum_eq_Rs h hb (t := t + 1) (by omega)
  rw [← Nat.add_assoc] at e
  rw [BIT.sum_ok (BIT.small_sieve hT.1) hT.2 (by omega), ← e]
  congr 1
  unfold bsum
  rw [show (t + 1 + 1) / 2 = t / 2 + 1 by omega, ← Finset.range_eq_Ico]
  push_cast
  rfl

end S2Hard
end PS
