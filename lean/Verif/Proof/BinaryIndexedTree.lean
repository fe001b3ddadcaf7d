import Verif.Model.BinaryIndexedTree
import Verif.Proof.Bits
import Verif.Proof.Width
import Mathlib.Algebra.BigOperators.Intervals
import Mathlib.Algebra.Order.BigOperators.Group.Finset

/-! The binary indexed tree stores sums over dyadic intervals. -/

namespace PS
namespace BIT
open Finset

/-- Left end of the interval of node `i`. -/
def lo (i : ℕ) : ℕ := (i + 1) &&& i

theorem lo_spec (i : ℕ) : ∃ k m, i + 1 = 2 ^ k * (2 * m + 1) ∧ lo i = 2 ^ (k + 1) * m ∧ lo i + 2 ^ k = i + 1 := by
  obtain ⟨k, m, h⟩ := exists_odd_decomp (n := i + 1) (by omega)
  have hl : lo i = 2 ^ (k + 1) * m := by
    have := land_pred k m
    rw [← h, Nat.add_sub_cancel] at this
    exact this
  refine ⟨k, m, h, hl, ?_⟩
  rw [hl, h]; ring

theorem lo_le (i : ℕ) : lo i ≤ i := by
  obtain ⟨k, m, h1, h2, h3⟩ := lo_spec i
  have : 0 < 2 ^ k := by positivity
  omega

theorem lo_of_mul {i K M : ℕ} (h : i + 1 = 2 ^ K * (M + 1)) : lo i ≤ 2 ^ K * M := by
  obtain ⟨k, m, h1, h2, h3⟩ := lo_spec i
  have hk : K ≤ k := by
    by_contra hc
    obtain ⟨d, rfl⟩ : ∃ d, K = k + 1 + d := ⟨K - k - 1, by omega⟩
    have h5 : 2 ^ k * (2 * m + 1) = 2 ^ k * (2 * (2 ^ d * (M + 1))) := by
      rw [← h1, h]; ring
    have := Nat.eq_of_mul_eq_mul_left (by positivity) h5
    omega
  have : 2 ^ K ≤ 2 ^ k := Nat.pow_le_pow_right (by norm_num) hk
  rw [Nat.mul_add] at h
  omega

theorem le_lo {i k A r : ℕ} (h : i + 1 = 2 ^ k * A + r) (h0 : 0 < r) (h1 : r < 2 ^ k) : 2 ^ k * A ≤ lo i := by
  obtain ⟨v, m, h2, -, h3⟩ := lo_spec i
  have hv : v < k := by
    by_contra hc
    obtain ⟨d, rfl⟩ : ∃ d, v = k + d := ⟨v - k, by omega⟩
    have : 2 ^ k ∣ r := by
      have h4 : 2 ^ k ∣ 2 ^ k * A + r := by
        rw [← h, h2, pow_add, mul_assoc]; exact Dvd.intro _ rfl
      exact (Nat.dvd_add_right (Dvd.intro _ rfl)).1 h4
    have := Nat.le_of_dvd h0 this
    omega
  have hr : 2 ^ v ∣ r := by
    have h4 : 2 ^ v ∣ 2 ^ k * A + r := by rw [← h, h2]; exact Dvd.intro _ rfl
    refine (Nat.dvd_add_right ?_).1 h4
    exact Dvd.dvd.mul_right (pow_dvd_pow 2 hv.le) A
  have := Nat.le_of_dvd h0 hr
  omega

/-- The first `n` nodes hold the sums of `a` over their intervals. -/
def Nodes (a : ℕ → ℤ) (n : ℕ) (tree : Vec ℤ) : Prop :=
  ∀ i, i < n → tree.get i = ∑ t ∈ Ico (lo i) (i + 1), a t

def Rep (a : ℕ → ℤ) (size : ℕ) (t : BIT) : Prop :=
  t.size = size ∧ t.tree.size = size ∧ Nodes a size t.tree

/-- Numbers whose sums fit an `int128_t`. -/
def Small (a : ℕ → ℤ) (size : ℕ) : Prop := size ≤ 2 ^ 62 ∧ ∀ i, i < size → 0 ≤ a i ∧ a i ≤ 2 ^ 63

theorem Small.sum {a : ℕ → ℤ} {size j k : ℕ} (h : Small a size) (hk : k ≤ size) :
    0 ≤ ∑ t ∈ Ico j k, a t ∧ ∑ t ∈ Ico j k, a t < 2 ^ 127 := by
  refine ⟨Finset.sum_nonneg (fun i hi => (h.2 i (by rw [Finset.mem_Ico] at hi; omega)).1), ?_⟩
  have h1 : ∑ t ∈ Ico j k, a t ≤ ∑ _t ∈ Ico j k, (2 ^ 63 : ℤ) :=
    Finset.sum_le_sum (fun i hi => (h.2 i (by rw [Finset.mem_Ico] at hi; omega)).2)
  rw [Finset.sum_const, Nat.card_Ico, nsmul_eq_mul] at h1
  have h2 := h.1
  have h3 : ((k - j : ℕ) : ℤ) ≤ 2 ^ 62 := by exact_mod_cast (show k - j ≤ 2 ^ 62 by omega)
  omega

theorem Small.fit {a : ℕ → ℤ} {size j k : ℕ} (h : Small a size) (hk : k ≤ size) :
    fitI 127 (∑ t ∈ Ico j k, a t) = .ok (∑ t ∈ Ico j k, a t) := by
  have := h.sum (j := j) hk
  exact fitI_ok (by omega) this.2

theorem small_sieve {p : ℕ → Prop} [DecidablePred p] {low size : ℕ} (h : low + 2 * size ≤ 2 ^ 63) :
    Small (fun i => if p i then ((low + 2 * i : ℕ) : ℤ) else 0) size := by
  refine ⟨by omega, fun i hi => ?_⟩
  dsimp only
  split
  · exact ⟨by omega, by exact_mod_cast (show low + 2 * i ≤ 2 ^ 63 by omega)⟩
  · omega

theorem initInner_ok {a : ℕ → ℤ} {i size : ℕ} {tree : Vec ℤ} (hA : Small a size) (hs : tree.size = size) (hi : i < size)
    (hn : Nodes a i tree) (hv : tree.get i = a i) :
    Ok (initInner i (Nat.ldiff (i + 1) i) tree) (fun t => t.size = size ∧ Nodes a (i + 1) t) := by
  obtain ⟨K, m, h1, h2, h3⟩ := lo_spec i
  have hk : Nat.ldiff (i + 1) i = 2 ^ K := by
    have := ldiff_pred K m
    rw [← h1, Nat.add_sub_cancel] at this
    exact this
  rw [hk]
  unfold initInner
  refine loop_ok (fun ((j, k, t) : ℕ × ℕ × Vec ℤ) => t.size = size ∧ Nodes a i t ∧ ∃ s, s ≤ K ∧
      k = 2 ^ (K - s) ∧ j + 2 ^ s = i + 1 ∧ t.get i = ∑ u ∈ Ico j (i + 1), a u)
    (fun (s : ℕ × ℕ × Vec ℤ) => s.2.1) _ ?_ ?_ ?_
  · refine ⟨hs, hn, 0, Nat.zero_le _, by simp, by simp, ?_⟩
    rw [hv]
    simp
  · show 2 ^ K < i + 3
    omega
  · rintro ⟨j, k, t⟩ ⟨g1, g2, s, g3, g4, g5, g6⟩
    dsimp only
    have hk2 : k >>> 1 = 2 ^ (K - s) / 2 := by rw [g4, Nat.shiftRight_one]
    rw [hk2]
    refine Ok.ite (fun hc => ?_) (fun hc => ?_)
    · have hsK : s < K := by
        by_contra hc'
        have : K - s = 0 := by omega
        rw [this] at hc
        norm_num at hc
      obtain ⟨d, rfl⟩ : ∃ d, K = s + 1 + d := ⟨K - s - 1, by omega⟩
      have e1 : s + 1 + d - s = d + 1 := by omega
      have e2 : 2 ^ (d + 1) / 2 = 2 ^ d := by rw [pow_succ]; omega
      rw [e1, e2]
      have hd : 0 < 2 ^ d := by positivity
      -- `j = 2^s * odd`
      have hj : j = 2 ^ s * (2 * (2 ^ d * (2 * m + 1) - 1) + 1) := by
        have e3 : 2 ^ (s + 1 + d) * (2 * m + 1) = 2 ^ s * (2 * (2 ^ d * (2 * m + 1))) := by ring
        rw [e3] at h1
        have h5 : 0 < 2 ^ d * (2 * m + 1) := by positivity
        obtain ⟨q, hq⟩ : ∃ q, 2 ^ d * (2 * m + 1) = q + 1 := ⟨_, (Nat.succ_pred_eq_of_pos h5).symm⟩
        rw [hq] at h1 ⊢
        rw [Nat.add_sub_cancel]
        have h6 : j + 2 ^ s = 2 ^ s * (2 * q + 1) + 2 ^ s := by rw [g5, h1]; ring
        omega
      have hjp : 0 < j := by rw [hj]; positivity
      have hps : 0 < 2 ^ s := by positivity
      have hji : j - 1 < i := by omega
      have hland : j &&& (j - 1) = lo (j - 1) := by
        unfold lo; rw [Nat.sub_add_cancel hjp]
      have hlo : lo (j - 1) + 2 ^ s = j := by
        have h7 := land_pred s (2 ^ d * (2 * m + 1) - 1)
        rw [← hj] at h7
        rw [← hland, h7]
        conv_rhs => rw [hj]
        ring
      rw [Vec.rd_ok (by omega)]
      simp only [ok_bind]
      rw [csub_ok (by omega)]
      simp only [ok_bind]
      rw [Vec.rd_ok (by omega)]
      simp only [ok_bind]
      have hsum : t.get i + t.get (j - 1) = ∑ u ∈ Ico (lo (j - 1)) (i + 1), a u := by
        rw [g6, g2 _ hji, Nat.sub_add_cancel hjp, add_comm]
        exact Finset.sum_Ico_consecutive a (by omega) (by omega)
      rw [hsum, hA.fit (by omega), ok_bind, Vec.wr_ok (by omega)]
      simp only [ok_bind]
      refine Ok.pure ⟨⟨by simpa using g1, ?_, s + 1, by omega, ?_, ?_, ?_⟩, ?_⟩
      · intro i' hi'
        rw [Vec.get_set_ne _ _ _ _ (by omega)]
        exact g2 i' hi'
      · show 2 ^ d = _
        congr 1; omega
      · rw [hland, pow_succ]; omega
      · rw [Vec.get_set_self _ _ _ (by omega), hland]
      · show 2 ^ d < k
        rw [g4, e1, pow_succ]; omega
    · have hsK : s = K := by
        by_contra hc'
        obtain ⟨d, hd⟩ : ∃ d, K - s = d + 1 := ⟨K - s - 1, by omega⟩
        have e2 : 2 ^ (d + 1) / 2 = 2 ^ d := by rw [pow_succ]; omega
        rw [hd, e2] at hc
        exact hc (by positivity)
      refine Ok.pure ⟨g1, fun i' hi' => ?_⟩
      rcases Nat.lt_or_ge i' i with h | h
      · exact g2 i' h
      · have : i' = i := by omega
        subst this
        rw [g6]
        congr 2
        subst hsK
        omega

theorem init_ok {t : BIT} {sieveSize low : ℕ} {sieve : ℕ → M Bool} {b : ℕ → Bool} (h63 : low + sieveSize ≤ 2 ^ 63)
    (hb : ∀ i, i < sieveSize / 2 → sieve (2 * i) = .ok (b i)) :
    Ok (init t sieveSize sieve low)
      (Rep (fun i => if b i then ((low + 2 * i : ℕ) : ℤ) else 0) (sieveSize / 2)) := by
  unfold init
  refine Ok.bind (forUp_ok (fun i (tree : Vec ℤ) => tree.size = sieveSize / 2 ∧
    Nodes (fun i => if b i then ((low + 2 * i : ℕ) : ℤ) else 0) i tree) ?_ (Nat.zero_le _)
    (fun i tree h1 h2 h3 => ?_)) (fun tree ht => Ok.pure ⟨rfl, ht.1, ht.2⟩)
  · exact ⟨by simp [resize], fun i h => by omega⟩
  · dsimp only
    rw [Nat.mul_comm i 2, hb i h2]
    simp only [ok_bind]
    rw [fit_ok (by omega), ok_bind, Vec.wr_ok (by omega)]
    simp only [ok_bind]
    refine initInner_ok (small_sieve (by omega)) (by simpa using h3.1) h2 ?_ ?_
    · intro i' hi'
      rw [Vec.get_set_ne _ _ _ _ (by omega)]
      exact h3.2 i' hi'
    · rw [Vec.get_set_self _ _ _ (by omega)]
      cases b i <;> simp

theorem update_ok {a a' : ℕ → ℤ} {size : ℕ} {t : BIT} {n low : ℕ} (hA : Small a' size) (h : Rep a size t) (hl : low ≤ n)
    (hp : (n - low) / 2 < size)
    (ha : ∀ i, a' i = if i = (n - low) / 2 then a i - n else a i) :
    Ok (update t n low) (Rep a' size) := by
  unfold update
  rw [csub_ok hl]
  simp only [ok_bind]
  rw [Nat.shiftRight_one]
  set p := (n - low) / 2 with hpdef
  clear_value p
  have hin : ∀ i, lo i ≤ p → p ≤ i → ∑ u ∈ Ico (lo i) (i + 1), a' u = ∑ u ∈ Ico (lo i) (i + 1), a u - n := by
    intro i h1 h2
    have hm : p ∈ Ico (lo i) (i + 1) := by rw [Finset.mem_Ico]; omega
    rw [← Finset.add_sum_erase _ a' hm, ← Finset.add_sum_erase _ a hm, ha p, if_pos rfl]
    have : ∑ u ∈ (Ico (lo i) (i + 1)).erase p, a' u = ∑ u ∈ (Ico (lo i) (i + 1)).erase p, a u := by
      refine Finset.sum_congr rfl (fun u hu => ?_)
      rw [ha u, if_neg (Finset.ne_of_mem_erase hu)]
    rw [this]; ring
  have hout : ∀ i, p < lo i ∨ i < p → ∑ u ∈ Ico (lo i) (i + 1), a' u = ∑ u ∈ Ico (lo i) (i + 1), a u := by
    intro i h1
    refine Finset.sum_congr rfl (fun u hu => ?_)
    rw [Finset.mem_Ico] at hu
    rw [ha u, if_neg (by omega)]
  refine loop_ok (fun ((q, tree) : ℕ × Vec ℤ) => tree.size = size ∧ q < size ∧ lo q ≤ p ∧ p ≤ q ∧
      (∀ i, i < q → tree.get i = ∑ u ∈ Ico (lo i) (i + 1), a' u) ∧
      (∀ i, q ≤ i → i < size → tree.get i = ∑ u ∈ Ico (lo i) (i + 1), a u))
    (fun (s : ℕ × Vec ℤ) => size - s.1) _ ?_ ?_ ?_
  · refine ⟨h.2.1, hp, lo_le p, le_refl _, fun i hi => ?_, fun i _ hi => h.2.2 i hi⟩
    rw [hout i (Or.inr hi)]
    exact h.2.2 i (by omega)
  · show size - p < t.size + 2
    rw [h.1]; omega
  · rintro ⟨q, tree⟩ ⟨g1, g2, g3, g4, g5, g6⟩
    dsimp only
    rw [Vec.rd_ok (by omega)]
    simp only [ok_bind]
    have hnew : tree.get q - n = ∑ u ∈ Ico (lo q) (q + 1), a' u := by rw [g6 q le_rfl g2, hin q g3 g4]
    have hfit : fitI 127 (tree.get q - n) = .ok (tree.get q - n) := by rw [hnew]; exact hA.fit (by omega)
    rw [hfit, ok_bind, Vec.wr_ok (by omega)]
    simp only [ok_bind]
    obtain ⟨k, m, k1, k2, k3⟩ := lo_spec q
    have hq' : q ||| (q + 1) = 2 ^ (k + 1) * (m + 1) - 1 := by
      have := lor_pred k m
      rw [← k1, Nat.add_sub_cancel] at this
      exact this
    have hpk : 0 < 2 ^ k := by positivity
    have hq1 : (q ||| (q + 1)) + 1 = 2 ^ (k + 1) * (m + 1) := by
      rw [hq']
      have : 0 < 2 ^ (k + 1) * (m + 1) := by positivity
      omega
    have hq2 : (q ||| (q + 1)) + 1 = q + 1 + 2 ^ k := by rw [hq1, k1]; ring
    generalize q ||| (q + 1) = q' at *
    have hall : ∀ i, i < q' → i < size →
        (tree.set q (tree.get q - n)).get i = ∑ u ∈ Ico (lo i) (i + 1), a' u := by
      intro i hi hi2
      rcases Nat.lt_trichotomy i q with h4 | h4 | h4
      · rw [Vec.get_set_ne _ _ _ _ (by omega)]
        exact g5 i h4
      · subst h4
        rw [Vec.get_set_self _ _ _ (by omega), g6 i (le_refl _) hi2, hin i g3 g4]
      · rw [Vec.get_set_ne _ _ _ _ (by omega), g6 i (by omega) hi2, hout i (Or.inl ?_)]
        have := le_lo (i := i) (k := k) (A := 2 * m + 1) (r := i - q) (by rw [← k1]; omega) (by omega) (by omega)
        omega
    rw [h.1]
    refine Ok.ite (fun hc => ?_) (fun hc => ?_)
    · refine Ok.pure ⟨⟨by simpa using g1, hc, ?_, by omega, fun i hi => hall i hi (by omega), fun i h4 h5 => ?_⟩, ?_⟩
      · have := lo_of_mul hq1
        show lo q' ≤ p
        omega
      · rw [Vec.get_set_ne _ _ _ _ (by omega)]
        exact g6 i (by omega) h5
      · show size - q' < size - q
        omega
    · exact Ok.pure ⟨rfl, by simpa using g1, fun i hi => hall i (by omega) hi⟩

theorem sum_ok {a : ℕ → ℤ} {size : ℕ} {t : BIT} {pos : ℕ} (hA : Small a size) (h : Rep a size t) (hp : pos / 2 < size) :
    sum t pos = .ok (∑ i ∈ range (pos / 2 + 1), a i) := by
  refine Ok.eq ?_
  unfold sum
  dsimp only
  rw [Nat.shiftRight_one, Vec.rd_ok (by rw [h.2.1]; exact hp)]
  simp only [ok_bind]
  generalize pos / 2 = p at *
  refine loop_ok (fun ((q, s) : ℕ × ℤ) => 1 ≤ q ∧ q ≤ p + 1 ∧ s = ∑ i ∈ Ico (lo (q - 1)) (p + 1), a i)
    (fun (s : ℕ × ℤ) => s.1) _ ?_ ?_ ?_
  · exact ⟨by omega, le_refl _, h.2.2 p hp⟩
  · show p + 1 < p + 1 + 1
    omega
  · rintro ⟨q, s⟩ ⟨g1, g2, g3⟩
    dsimp only
    rw [csub_ok g1]
    simp only [ok_bind]
    have hl : q &&& (q - 1) = lo (q - 1) := by unfold lo; rw [Nat.sub_add_cancel g1]
    have hle := lo_le (q - 1)
    rw [hl]
    refine Ok.ite (fun hc => ?_) (fun hc => ?_)
    · rw [Vec.rd_ok (by rw [h.2.1]; omega)]
      simp only [ok_bind]
      have hle2 := lo_le (lo (q - 1) - 1)
      have hsum : s + t.tree.get (lo (q - 1) - 1) = ∑ i ∈ Ico (lo (lo (q - 1) - 1)) (p + 1), a i := by
        rw [h.2.2 _ (by omega), g3, Nat.sub_add_cancel (by omega), add_comm]
        exact Finset.sum_Ico_consecutive a (by omega) (by omega)
      rw [hsum, hA.fit (by omega), ok_bind]
      exact Ok.pure ⟨⟨by omega, by omega, rfl⟩, by omega⟩
    · refine Ok.pure ?_
      push Not at hc
      rw [g3, hc, Finset.range_eq_Ico]

end BIT
end PS
