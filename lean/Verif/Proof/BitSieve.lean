import Verif.Proof.BitSum
import Verif.Proof.Imath
import Verif.Proof.PrimeSieve
import Verif.Proof.Width

/-! The bit sieve as a set of positions. -/

namespace PS
open Finset
namespace BitSieve

/-- The `k`-th bit of the sieve (position `2k`). -/
def vbit (v : Vec (BitVec 64)) (k : ℕ) : Bool := (v.get (k / 64)).getLsbD (k % 64)

def bit (b : BitSieve) (k : ℕ) : Bool := vbit b.sieve k

theorem setBit_get : ∀ p, p < 128 → setBit.get p = 1#64 <<< (p / 2) := by decide +kernel

theorem setBit_rd (p : ℕ) : setBit.rd (p % 128) = .ok (1#64 <<< (p % 128 / 2)) := by
  have h : p % 128 < 128 := Nat.mod_lt _ (by norm_num)
  rw [Vec.rd_ok (show p % 128 < setBit.size from h), setBit_get _ h]

theorem getLsbD_one_shift (j k : ℕ) (hk : k < 64) : (1#64 <<< j).getLsbD k = decide (k = j) := by
  rw [BitVec.getLsbD_shiftLeft, BitVec.getLsbD_one]
  by_cases h : k = j
  · subst h; simp [hk]
  · by_cases h2 : k < j
    · simp [h, h2]
    · have : ¬ k - j = 0 := by omega
      simp [h, this]

theorem and_one_shift (w : BitVec 64) (j : ℕ) (hj : j < 64) : decide (w &&& (1#64 <<< j) ≠ 0#64) = w.getLsbD j := by
  rw [Bool.eq_iff_iff, decide_eq_true_iff]
  constructor
  · intro h
    by_contra hc
    apply h
    apply BitVec.eq_of_getLsbD_eq
    intro i hi
    rw [BitVec.getLsbD_and, getLsbD_one_shift _ _ hi, BitVec.getLsbD_zero]
    by_cases he : i = j
    · subst he; simpa using hc
    · simp [he]
  · intro h hc
    have h2 : (w &&& (1#64 <<< j)).getLsbD j = false := by rw [hc]; simp
    rw [BitVec.getLsbD_and, getLsbD_one_shift _ _ hj, h] at h2
    simp at h2

theorem at_ok {b : BitSieve} {k : ℕ} (h : k / 64 < b.sieve.size) : at_ b (2 * k) = .ok (bit b k) := by
  unfold at_
  rw [setBit_rd]
  simp only [ok_bind]
  have e1 : 2 * k / 128 = k / 64 := by omega
  have e2 : 2 * k % 128 / 2 = k % 64 := by omega
  rw [e1, e2, Vec.rd_ok h]
  simp only [ok_bind, pure_eq_ok]
  rw [and_one_shift _ _ (Nat.mod_lt _ (by norm_num))]
  rfl

theorem unset_ok {b : BitSieve} {k : ℕ} (h : k / 64 < b.sieve.size) :
    Ok (unset b (2 * k)) (fun b' => b'.size = b.size ∧ b'.sieve.size = b.sieve.size ∧
      ∀ j, bit b' j = (bit b j && decide (j ≠ k))) := by
  unfold unset
  rw [setBit_rd]
  simp only [ok_bind]
  have e1 : 2 * k / 128 = k / 64 := by omega
  have e2 : 2 * k % 128 / 2 = k % 64 := by omega
  rw [e1, e2, Vec.rd_ok h]
  simp only [ok_bind]
  rw [Vec.wr_ok h]
  simp only [ok_bind]
  refine Ok.pure ⟨rfl, by simp, fun j => ?_⟩
  unfold bit vbit
  dsimp only
  rw [Vec.get_set]
  by_cases hj : k / 64 = j / 64
  · rw [if_pos ⟨hj, h⟩, BitVec.getLsbD_and, BitVec.getLsbD_not, getLsbD_one_shift _ _ (Nat.mod_lt _ (by norm_num)), hj]
    have h64 : j % 64 < 64 := Nat.mod_lt _ (by norm_num)
    have : (j % 64 = k % 64) ↔ j = k := by omega
    simp [h64, this]
  · rw [if_neg (fun hc => hj hc.1)]
    have : j ≠ k := fun hc => hj (by rw [hc])
    simp [this]

theorem set_ok {b : BitSieve} {k : ℕ} (h : k / 64 < b.sieve.size) :
    Ok (set b (2 * k)) (fun b' => b'.size = b.size ∧ b'.sieve.size = b.sieve.size ∧
      ∀ j, bit b' j = (bit b j || decide (j = k))) := by
  unfold set
  rw [setBit_rd]
  simp only [ok_bind]
  have e1 : 2 * k / 128 = k / 64 := by omega
  have e2 : 2 * k % 128 / 2 = k % 64 := by omega
  rw [e1, e2, Vec.rd_ok h]
  simp only [ok_bind]
  rw [Vec.wr_ok h]
  simp only [ok_bind]
  refine Ok.pure ⟨rfl, by simp, fun j => ?_⟩
  unfold bit vbit
  dsimp only
  rw [Vec.get_set]
  by_cases hj : k / 64 = j / 64
  · rw [if_pos ⟨hj, h⟩, BitVec.getLsbD_or, getLsbD_one_shift _ _ (Nat.mod_lt _ (by norm_num)), hj]
    have : (j % 64 = k % 64) ↔ j = k := by omega
    simp [this]
  · rw [if_neg (fun hc => hj hc.1)]
    have : j ≠ k := fun hc => hj (by rw [hc])
    simp [this]

/-! ## sum -/

theorem mask1 : ∀ j, j < 64 → ∀ k, k < 64 →
    (~~~ (1#64 <<< j - 1#64)).getLsbD k = decide (j ≤ k) := by decide +kernel

theorem mask2 : ∀ j, j < 64 → ∀ k, k < 64 →
    (((1#64 <<< j - 1#64) <<< 1) ||| 1#64).getLsbD k = decide (k ≤ j) := by decide +kernel

/-- The sum of the unsieved numbers with bit index in `[a, b)`. -/
def bsum (v : Vec (BitVec 64)) (low a b : ℕ) : ℕ := ∑ k ∈ Ico a b, if vbit v k then low + 2 * k else 0

theorem bsum_append {v : Vec (BitVec 64)} {low a b c : ℕ} (h1 : a ≤ b) (h2 : b ≤ c) :
    bsum v low a b + bsum v low b c = bsum v low a c :=
  Finset.sum_Ico_consecutive _ h1 h2

theorem W_mask {v : Vec (BitVec 64)} {low w a b : ℕ} {m : BitVec 64} (ha : 64 * w ≤ a) (hb : b ≤ 64 * w + 64)
    (hm : ∀ k, k < 64 → (m.getLsbD k = true ↔ a ≤ 64 * w + k ∧ 64 * w + k < b)) :
    W (v.get w &&& m) (low + 128 * w) = bsum v low a b := by
  have h1 : bsum v low a b = ∑ k ∈ Ico (64 * w) (64 * w + 64), if vbit v k ∧ a ≤ k ∧ k < b then low + 2 * k else 0 := by
    unfold bsum
    rw [← Finset.sum_filter, ← Finset.sum_filter]
    refine Finset.sum_congr ?_ (fun _ _ => rfl)
    ext k
    simp only [Finset.mem_filter, Finset.mem_Ico]
    constructor
    · rintro ⟨h2, h3⟩; exact ⟨⟨by omega, by omega⟩, h3, h2.1, h2.2⟩
    · rintro ⟨-, h3, h4, h5⟩; exact ⟨⟨h4, h5⟩, h3⟩
  rw [h1, Finset.sum_Ico_eq_sum_range]
  unfold W
  rw [Nat.add_sub_cancel_left]
  refine Finset.sum_congr rfl (fun k hk => ?_)
  rw [Finset.mem_range] at hk
  have hv : vbit v (64 * w + k) = (v.get w).getLsbD k := by
    unfold vbit
    rw [show (64 * w + k) / 64 = w by omega, show (64 * w + k) % 64 = k by omega]
  have hc : ((v.get w &&& m).getLsbD k = true) ↔ (vbit v (64 * w + k) = true ∧ a ≤ 64 * w + k ∧ 64 * w + k < b) := by
    rw [BitVec.getLsbD_and, Bool.and_eq_true, hm k hk, hv]
  by_cases h : (v.get w &&& m).getLsbD k = true
  · rw [if_pos h, if_pos (hc.1 h)]; omega
  · rw [if_neg h, if_neg (fun h' => h (hc.2 h'))]

theorem W_full {v : Vec (BitVec 64)} {low w : ℕ} :
    W (v.get w) (low + 128 * w) = bsum v low (64 * w) (64 * w + 64) := by
  have h := W_mask (v := v) (low := low) (w := w) (a := 64 * w) (b := 64 * w + 64) (m := BitVec.allOnes 64)
    (le_refl _) (le_refl _) (fun k hk => by
      rw [BitVec.getLsbD_allOnes]; simp [hk])
  rw [BitVec.and_allOnes] at h
  exact h

theorem bsum_lt {v : Vec (BitVec 64)} {low a b N : ℕ} (hb : b ≤ a + 64) (h : low + 2 * b ≤ N) : bsum v low a b ≤ 64 * N := by
  unfold bsum
  have : ∀ k ∈ Ico a b, (if vbit v k then low + 2 * k else 0) ≤ N := by
    intro k hk
    rw [Finset.mem_Ico] at hk
    split <;> omega
  refine le_trans (Finset.sum_le_card_nsmul _ _ _ this) ?_
  rw [Nat.card_Ico, smul_eq_mul]
  exact Nat.mul_le_mul_right _ (by omega)

/-- The sums of the parts of words below position `T` fit `uint64_t`. -/
def Fits (v : Vec (BitVec 64)) (low T : ℕ) : Prop := ∀ a b, b ≤ a + 64 → b ≤ T → bsum v low a b < 2 ^ 64

theorem Fits.anti {v : Vec (BitVec 64)} {low T T' : ℕ} (h : Fits v low T) (ht : T' ≤ T) : Fits v low T' :=
  fun a b h1 h2 => h a b h1 (h2.trans ht)

theorem fits_of_lt {v : Vec (BitVec 64)} {low T : ℕ} (h : low + 2 * T < 2 ^ 58) : Fits v low T := by
  intro a b h1 h2
  have := bsum_lt (v := v) (N := 2 ^ 58 - 1) h1 (show low + 2 * b ≤ _ by omega)
  omega

/-- Of 64 consecutive odd numbers at most 31 are not divisible by 3, 5 or 7. -/
theorem window_le : ∀ r < 105, ((range 64).filter (fun j => (r + 2 * j) % 3 ≠ 0 ∧ (r + 2 * j) % 5 ≠ 0 ∧ (r + 2 * j) % 7 ≠ 0)).card ≤ 31 := by
  decide +kernel

/-- After sieving with 3, 5 and 7 the sum of a word fits `uint64_t` below `2^59`. -/
theorem fits_of_rough {v : Vec (BitVec 64)} {low T : ℕ} (hT : low + 2 * T ≤ 2 ^ 59 + 1)
    (hR : ∀ k, k < T → vbit v k = true → (low + 2 * k) % 3 ≠ 0 ∧ (low + 2 * k) % 5 ≠ 0 ∧ (low + 2 * k) % 7 ≠ 0) : Fits v low T := by
  intro a e h1 h2
  have hc : ((Ico a e).filter (fun k => vbit v k = true)).card ≤ 31 := by
    refine le_trans ?_ (window_le ((low + 2 * a) % 105) (Nat.mod_lt _ (by norm_num)))
    refine Finset.card_le_card_of_injOn (fun k => k - a) ?_ ?_
    · intro k hk
      rw [Finset.mem_coe, Finset.mem_filter, Finset.mem_Ico] at hk
      have := hR k (by omega) hk.2
      rw [Finset.mem_coe, Finset.mem_filter, Finset.mem_range]
      dsimp only
      refine ⟨by omega, ?_, ?_, ?_⟩ <;> omega
    · intro k hk k' hk' he
      rw [Finset.mem_coe, Finset.mem_filter, Finset.mem_Ico] at hk hk'
      dsimp only at he
      omega
  unfold bsum
  rw [← Finset.sum_filter]
  have := Finset.sum_le_card_nsmul ((Ico a e).filter (fun k => vbit v k = true)) (fun k => low + 2 * k) (2 ^ 59) (fun k hk => by
    rw [Finset.mem_filter, Finset.mem_Ico] at hk
    omega)
  rw [smul_eq_mul] at this
  have h3 := Nat.mul_le_mul_right (2 ^ 59) hc
  omega

theorem bsum_total {v : Vec (BitVec 64)} {low a b : ℕ} (h : low + 2 * b ≤ 2 ^ 62) : bsum v low a b < 2 ^ 123 := by
  have h1 : bsum v low a b ≤ (b - a) * (2 ^ 62 - 1) := by
    unfold bsum
    rw [← Nat.card_Ico, ← smul_eq_mul]
    refine Finset.sum_le_card_nsmul _ _ _ (fun k hk => ?_)
    rw [Finset.mem_Ico] at hk
    split <;> omega
  have h2 : (b - a) * (2 ^ 62 - 1) ≤ 2 ^ 61 * (2 ^ 62 - 1) := Nat.mul_le_mul_right _ (by omega)
  omega

theorem dvd_congr {m a b : ℤ} (h : m ∣ a) (e : b = a) : m ∣ b := by rw [e]; exact h

/-- The sums of words are right modulo `m`: because they fit `uint64_t` or because `m` divides `2^64`. -/
def Wraps (m : ℤ) (v : Vec (BitVec 64)) (low T : ℕ) : Prop := m ∣ 2 ^ 64 ∨ Fits v low T

theorem Wraps.anti {m : ℤ} {v : Vec (BitVec 64)} {low T T' : ℕ} (h : Wraps m v low T) (ht : T' ≤ T) : Wraps m v low T' :=
  h.imp id (fun h => h.anti ht)

/-- The part of a word. -/
theorem Wraps.word {m : ℤ} {v : Vec (BitVec 64)} {low T a b : ℕ} (h : Wraps m v low T) (h1 : b ≤ a + 64) (h2 : b ≤ T) :
    (BitVec.ofNat 64 (bsum v low a b)).toNat ≤ bsum v low a b ∧
      m ∣ ((BitVec.ofNat 64 (bsum v low a b)).toNat : ℤ) - (bsum v low a b : ℕ) := by
  rw [BitVec.toNat_ofNat]
  refine ⟨Nat.mod_le _ _, ?_⟩
  rcases h with h | h
  · refine h.trans ⟨-((bsum v low a b / 2 ^ 64 : ℕ) : ℤ), ?_⟩
    have := Nat.div_add_mod (bsum v low a b) (2 ^ 64)
    omega
  · rw [Nat.mod_eq_of_lt (h a b h1 h2), sub_self]
    exact dvd_zero m

theorem sumWords_near {m : ℤ} {v : Vec (BitVec 64)} {low first n : ℕ} (hv : first + n ≤ v.size)
    (hlow : low + 128 * (first + n) < 2 ^ 62) (hf : Wraps m v low (64 * (first + n))) :
    ∃ r, sumWords v first n (BitVec.ofNat 64 (low + 128 * first)) = .ok (r, BitVec.ofNat 64 (low + 128 * (first + n))) ∧
      r ≤ bsum v low (64 * first) (64 * (first + n)) ∧ m ∣ (r : ℤ) - (bsum v low (64 * first) (64 * (first + n)) : ℕ) := by
  have key : Ok (sumWords v first n (BitVec.ofNat 64 (low + 128 * first))) (fun r => r.2 = BitVec.ofNat 64 (low + 128 * (first + n)) ∧
      r.1 ≤ bsum v low (64 * first) (64 * (first + n)) ∧ m ∣ (r.1 : ℤ) - (bsum v low (64 * first) (64 * (first + n)) : ℕ)) := by
    unfold sumWords
    refine forUp_ok (fun i (r : ℕ × BitVec 64) => r.2 = BitVec.ofNat 64 (low + 128 * (first + i)) ∧
      r.1 ≤ bsum v low (64 * first) (64 * (first + i)) ∧ m ∣ (r.1 : ℤ) - (bsum v low (64 * first) (64 * (first + i)) : ℕ))
      ?_ (Nat.zero_le _) (fun i r h1 h2 h3 => ?_)
    · simp [bsum]
    · obtain ⟨sum, l⟩ := r
      obtain ⟨a1, a2, a3⟩ := h3
      dsimp only at a1 a2 a3 ⊢
      subst a1
      rw [Vec.rd_ok (by omega)]
      simp only [ok_bind]
      rw [sumBits_ok, W_full]
      simp only [ok_bind]
      obtain ⟨w1, w2⟩ := hf.word (a := 64 * (first + i)) (b := 64 * (first + i) + 64) (le_refl _) (by omega)
      have e := bsum_append (v := v) (low := low) (a := 64 * first) (b := 64 * (first + i)) (c := 64 * (first + i) + 64) (by omega) (by omega)
      have ht := bsum_total (v := v) (low := low) (a := 64 * first) (b := 64 * (first + i) + 64) (by omega)
      rw [fit_ok (by omega), ok_bind]
      refine Ok.pure ⟨?_, ?_, ?_⟩
      · show BitVec.ofNat 64 _ = BitVec.ofNat 64 _
        congr 1
      · rw [show 64 * (first + (i + 1)) = 64 * (first + i) + 64 by ring]
        dsimp only
        omega
      · rw [show 64 * (first + (i + 1)) = 64 * (first + i) + 64 by ring, ← e]
        dsimp only
        exact dvd_congr (dvd_add a3 w2) (by push_cast; ring)
  obtain ⟨⟨r, l⟩, h1, h2, h3⟩ := key
  dsimp only at h2 h3
  exact ⟨r, by rw [h1, h2], h3⟩

/-- `sum`, modulo `m`. -/
theorem sum_near {m : ℤ} {b : BitSieve} {low start stop : ℕ} (hs : stop < 128 * b.sieve.size)
    (hlow : low + stop + 128 < 2 ^ 62) (hf : Wraps m b.sieve low (stop / 2 + 1)) :
    ∃ r, sum b low start stop = .ok r ∧ r ≤ bsum b.sieve low ((start + 1) / 2) (stop / 2 + 1) ∧
      m ∣ (r : ℤ) - (bsum b.sieve low ((start + 1) / 2) (stop / 2 + 1) : ℕ) := by
  unfold sum
  dsimp only
  have hst : stop - stop % 2 = 2 * (stop / 2) := by omega
  have hsr : start + start % 2 = 2 * ((start + 1) / 2) := by omega
  rw [hst, hsr]
  generalize hA : (start + 1) / 2 = A
  generalize hB : stop / 2 = B at *
  have hB2 : 2 * B ≤ stop := by omega
  by_cases hc : 2 * A > 2 * B
  · rw [if_pos hc]
    have : bsum b.sieve low A (B + 1) = 0 := by
      unfold bsum
      rw [Finset.Ico_eq_empty (by omega)]; simp
    rw [this]; exact ⟨0, rfl, le_rfl, by simp⟩
  · rw [if_neg hc, setBit_rd, setBit_rd]
    simp only [ok_bind]
    have hA64 : 2 * A % 128 / 2 = A % 64 := by omega
    have hB64 : 2 * B % 128 / 2 = B % 64 := by omega
    have eA : 2 * A / 128 = A / 64 := by omega
    have eB : 2 * B / 128 = B / 64 := by omega
    have eL : low + (2 * A - 2 * A % 128) = low + 128 * (A / 64) := by omega
    rw [hA64, hB64, eA, eB, eL]
    have hAm : A % 64 < 64 := Nat.mod_lt _ (by norm_num)
    have hBm : B % 64 < 64 := Nat.mod_lt _ (by norm_num)
    by_cases he : A / 64 = B / 64
    · rw [if_pos he, Vec.rd_ok (by omega)]
      simp only [ok_bind]
      rw [sumBits_ok]
      simp only [ok_bind]
      rw [W_mask (a := A) (b := B + 1) (by omega) (by omega) (fun k hk => by
        rw [BitVec.getLsbD_and, mask1 _ hAm _ hk, mask2 _ hBm _ hk, Bool.and_eq_true, decide_eq_true_iff,
          decide_eq_true_iff]
        omega)]
      exact ⟨_, rfl, hf.word (by omega) (by omega)⟩
    · rw [if_neg he, Vec.rd_ok (by omega)]
      simp only [ok_bind]
      rw [sumBits_ok]
      simp only [ok_bind]
      have e128 : low + 128 * (A / 64) + 128 = low + 128 * (A / 64 + 1) := by ring
      obtain ⟨r, hr, r1, r2⟩ := sumWords_near (m := m) (v := b.sieve) (low := low) (first := A / 64 + 1) (n := B / 64 - (A / 64 + 1))
        (by omega) (by omega) (hf.anti (by omega))
      rw [e128, hr]
      simp only [ok_bind]
      have eBB : A / 64 + 1 + (B / 64 - (A / 64 + 1)) = B / 64 := by omega
      rw [eBB] at r1 r2 ⊢
      rw [Vec.rd_ok (by omega)]
      simp only [ok_bind]
      rw [sumBits_ok]
      simp only [ok_bind]
      rw [W_mask (a := A) (b := 64 * (A / 64) + 64) (by omega) (by omega) (fun k hk => by
        rw [mask1 _ hAm _ hk, decide_eq_true_iff]
        omega)]
      rw [W_mask (a := 64 * (B / 64)) (b := B + 1) (by omega) (by omega) (fun k hk => by
        rw [mask2 _ hBm _ hk, decide_eq_true_iff]
        omega)]
      obtain ⟨w1, w2⟩ := hf.word (a := A) (b := 64 * (A / 64) + 64) (by omega) (by omega)
      obtain ⟨w3, w4⟩ := hf.word (a := 64 * (B / 64)) (b := B + 1) (by omega) (by omega)
      have e1 := bsum_append (v := b.sieve) (low := low) (a := A) (b := 64 * (A / 64) + 64) (c := 64 * (B / 64)) (by omega) (by omega)
      have e2 := bsum_append (v := b.sieve) (low := low) (a := A) (b := 64 * (B / 64)) (c := B + 1) (by omega) (by omega)
      have ht := bsum_total (v := b.sieve) (low := low) (a := A) (b := B + 1) (by omega)
      rw [show 64 * (A / 64 + 1) = 64 * (A / 64) + 64 by ring] at r1 r2
      rw [fit_ok (by omega), ok_bind, fit_ok (by omega)]
      refine ⟨_, rfl, by omega, ?_⟩
      rw [← e2, ← e1]
      exact dvd_congr (dvd_add (dvd_add w2 r2) w4) (by push_cast; ring)

theorem sum_ok {b : BitSieve} {low start stop : ℕ} (hs : stop < 128 * b.sieve.size)
    (hlow : low + stop + 128 < 2 ^ 62) (hf : Fits b.sieve low (stop / 2 + 1)) :
    sum b low start stop = .ok (bsum b.sieve low ((start + 1) / 2) (stop / 2 + 1)) := by
  obtain ⟨r, h1, -, h2⟩ := sum_near (m := 0) (start := start) hs hlow (Or.inr hf)
  rw [h1]
  rw [zero_dvd_iff] at h2
  congr 1
  omega

/-- The sum of one word, reduced to 64 bits. -/
theorem sum_word {b : BitSieve} {low w : ℕ} (hw : w < b.sieve.size) :
    sum b low (128 * w) (128 * w + 126) = .ok (bsum b.sieve low (64 * w) (64 * w + 64) % 2 ^ 64) := by
  unfold sum
  dsimp only
  rw [show 128 * w + 126 - (128 * w + 126) % 2 = 128 * w + 126 by omega, show 128 * w + 128 * w % 2 = 128 * w by omega,
    if_neg (by omega), show 128 * w % 128 = 2 * 0 by omega, show (128 * w + 126) % 128 = 2 * 63 by omega,
    show 128 * w / 128 = w by omega, show (128 * w + 126) / 128 = w by omega]
  have r1 : setBit.rd (2 * 0) = .ok (setBit.get (2 * 0)) := Vec.rd_ok (by decide +kernel)
  have r2 : setBit.rd (2 * 63) = .ok (setBit.get (2 * 63)) := Vec.rd_ok (by decide +kernel)
  rw [r1, ok_bind, r2, ok_bind, if_pos rfl, Vec.rd_ok hw, ok_bind, sumBits_ok]
  simp only [ok_bind]
  have hm : (~~~(setBit.get (2 * 0) - 1#64) &&& ((setBit.get (2 * 63) - 1#64) <<< 1 ||| 1#64)) = BitVec.allOnes 64 := by decide +kernel
  rw [hm, BitVec.and_allOnes, show low + (128 * w - 2 * 0) = low + 128 * w by omega, W_full, BitVec.toNat_ofNat]
  rfl

/-- The sum with six arguments, modulo `m`. -/
theorem sum6_near {m : ℤ} {b : BitSieve} {start stop low high : ℕ} {s0 sall : ℤ} (hst : stop < high - low)
    (hs : high - low ≤ 128 * b.sieve.size) (hlow : high + 128 < 2 ^ 62) (hf : Wraps m b.sieve low ((high - low + 1) / 2)) (hl : low ≤ high)
    (h0 : m ∣ s0 - (bsum b.sieve low 0 ((start + 1) / 2) : ℕ)) (hall : m ∣ sall - (bsum b.sieve low 0 ((high - low + 1) / 2) : ℕ))
    (b0 : |s0| ≤ 2 ^ 125) (ball : |sall| ≤ 2 ^ 125) :
    ∃ r, sum6 b start stop low high s0 sall = .ok r ∧
      m ∣ r - (bsum b.sieve low ((start + 1) / 2) (stop / 2 + 1) : ℕ) ∧
      ((0 ≤ r ∧ r ≤ (bsum b.sieve low ((start + 1) / 2) (stop / 2 + 1) : ℕ)) ∨
        ∃ t : ℤ, 0 ≤ t ∧ t ≤ (bsum b.sieve low (stop / 2 + 1) ((high - low + 1) / 2) : ℕ) ∧ r = sall - s0 - t) := by
  unfold sum6
  by_cases hc : start > stop
  · rw [if_pos hc]
    have : bsum b.sieve low ((start + 1) / 2) (stop / 2 + 1) = 0 := by
      unfold bsum
      rw [Finset.Ico_eq_empty (by omega)]; simp
    rw [this]; exact ⟨0, rfl, by simp, Or.inl ⟨le_rfl, by simp⟩⟩
  · rw [if_neg hc, csub_ok hl]
    simp only [ok_bind]
    rw [csub_ok (by omega)]
    simp only [ok_bind]
    by_cases hd : stop - start < high - low - stop
    · obtain ⟨r, hr, r1, r2⟩ := sum_near (m := m) (b := b) (low := low) (start := start) (stop := stop) (by omega) (by omega) (hf.anti (by omega))
      rw [if_pos hd, hr]
      exact ⟨r, rfl, r2, Or.inl ⟨by omega, by omega⟩⟩
    · rw [if_neg hd, csub_ok (by omega)]
      simp only [ok_bind]
      obtain ⟨r, hr, r1, r2⟩ := sum_near (m := m) (b := b) (low := low) (start := stop + 1) (stop := high - 1 - low) (by omega) (by omega) (hf.anti (by omega))
      rw [hr]
      simp only [ok_bind]
      have e2 : (stop + 1 + 1) / 2 = stop / 2 + 1 := by omega
      have e3 : (high - 1 - low) / 2 + 1 = (high - low + 1) / 2 := by omega
      rw [e2, e3] at r1 r2
      have b3 := bsum_total (v := b.sieve) (low := low) (a := stop / 2 + 1) (b := (high - low + 1) / 2) (by omega)
      rw [abs_le] at b0 ball
      rw [fitI_ok (by omega) (by omega), ok_bind, fitI_ok (by omega) (by omega)]
      refine ⟨_, rfl, ?_, Or.inr ⟨r, by omega, by omega, rfl⟩⟩
      have e4 := bsum_append (v := b.sieve) (low := low) (a := 0) (b := (start + 1) / 2) (c := (high - low + 1) / 2) (by omega) (by omega)
      have e5 := bsum_append (v := b.sieve) (low := low) (a := (start + 1) / 2) (b := stop / 2 + 1) (c := (high - low + 1) / 2) (by omega) (by omega)
      refine dvd_congr (dvd_sub (dvd_sub hall h0) r2) ?_
      rw [← e4, ← e5]
      push_cast
      ring

theorem sum6_ok {b : BitSieve} {start stop low high : ℕ} {s0 sall : ℤ} (hst : stop < high - low)
    (hs : high - low ≤ 128 * b.sieve.size) (hlow : high + 128 < 2 ^ 62) (hf : Fits b.sieve low ((high - low + 1) / 2)) (hl : low ≤ high)
    (h0 : s0 = bsum b.sieve low 0 ((start + 1) / 2)) (hall : sall = bsum b.sieve low 0 ((high - low + 1) / 2)) :
    sum6 b start stop low high s0 sall = .ok ((bsum b.sieve low ((start + 1) / 2) (stop / 2 + 1) : ℕ) : ℤ) := by
  by_cases hc : start > stop
  · unfold sum6 bsum
    rw [if_pos hc, Finset.Ico_eq_empty (by omega)]
    rfl
  have b1 := bsum_total (v := b.sieve) (low := low) (a := 0) (b := (start + 1) / 2) (by omega)
  have b2 := bsum_total (v := b.sieve) (low := low) (a := 0) (b := (high - low + 1) / 2) (by omega)
  obtain ⟨r, h1, h2, -⟩ := sum6_near (m := 0) (start := start) (s0 := s0) (sall := sall) hst hs hlow (Or.inr hf) hl (by rw [h0, sub_self])
    (by rw [hall, sub_self]) (by rw [h0, abs_of_nonneg (by omega)]; omega) (by rw [hall, abs_of_nonneg (by omega)]; omega)
  rw [h1]
  rw [zero_dvd_iff] at h2
  congr 1
  omega

end BitSieve
end PS
