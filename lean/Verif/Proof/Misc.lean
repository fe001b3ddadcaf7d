import Verif.Model.Misc
import Verif.Proof.PrimeSieve
import Mathlib.Tactic.Ring
import Mathlib.Tactic.Linarith
import Mathlib.Tactic.NormNum
import Mathlib.Tactic.IntervalCases

namespace PS
open Nat (primeCounting)
local notation "π" => Nat.primeCounting

/-! ## popcount -/

/-- Number of one bits among the lowest `n` bits. -/
def bitSum (n x : ℕ) : ℕ := ((List.range n).map (fun i => (x.testBit i).toNat)).sum

theorem land_block (k a m r s : ℕ) (ha : a < 2 ^ k) (hm : m < 2 ^ k) :
    (a + 2 ^ k * r) &&& (m + 2 ^ k * s) = (a &&& m) + 2 ^ k * (r &&& s) := by
  have hand : a &&& m < 2 ^ k := lt_of_le_of_lt Nat.and_le_left ha
  apply Nat.eq_of_testBit_eq
  intro j
  rw [Nat.testBit_and, Nat.add_comm a, Nat.add_comm m, Nat.add_comm (a &&& m),
    Nat.testBit_two_pow_mul_add _ ha, Nat.testBit_two_pow_mul_add _ hm,
    Nat.testBit_two_pow_mul_add _ hand]
  split <;> rw [Nat.testBit_and]

theorem bitSum_succ (n x : ℕ) : bitSum (n + 1) x = x % 2 + bitSum n (x / 2) := by
  unfold bitSum
  rw [List.range_succ_eq_map]
  simp only [List.map_cons, List.sum_cons, List.map_map]
  congr 1
  · rw [Nat.testBit_zero]; rcases Nat.mod_two_eq_zero_or_one x with h | h <;> simp [h]
  · congr 1
    apply List.map_congr_left
    intro i _
    simp [Nat.testBit_succ]

theorem bitSum_add (m n x : ℕ) : bitSum (m + n) x = bitSum m x + bitSum n (x / 2 ^ m) := by
  induction m generalizing x with
  | zero => simp [bitSum]
  | succ m ih =>
    rw [Nat.succ_add, bitSum_succ, ih, bitSum_succ, Nat.div_div_eq_div_mul, pow_succ']
    omega

theorem bitSum_mod (m x : ℕ) : bitSum m (x % 2 ^ m) = bitSum m x := by
  unfold bitSum
  congr 1
  apply List.map_congr_left
  intro i hi
  rw [List.mem_range] at hi
  rw [Nat.testBit_mod_two_pow]; simp [hi]

theorem bitSum_le (m x : ℕ) : bitSum m x ≤ m := by
  induction m generalizing x with
  | zero => simp [bitSum]
  | succ m ih => rw [bitSum_succ]; have := ih (x / 2); omega

/-- Masks: `n` blocks of `k` bits, each block equal to `m`. -/
def blockMask (k m : ℕ) : ℕ → ℕ
  | 0 => 0
  | n + 1 => m + 2 ^ k * blockMask k m n

/-- The word whose `n` blocks of `k` bits hold the values `f` of the corresponding blocks of `x`. -/
def blockMap (k : ℕ) (f : ℕ → ℕ) : ℕ → ℕ → ℕ
  | 0, _ => 0
  | n + 1, x => f (x % 2 ^ k) + 2 ^ k * blockMap k f n (x / 2 ^ k)

theorem blockMask_succ (k m n : ℕ) : blockMask k m (n + 1) = m + 2 ^ k * blockMask k m n := rfl

theorem blockMap_succ (k : ℕ) (f : ℕ → ℕ) (n x : ℕ) :
    blockMap k f (n + 1) x = f (x % 2 ^ k) + 2 ^ k * blockMap k f n (x / 2 ^ k) := rfl

theorem and3 (a : ℕ) : a &&& 3 = a % 4 := Nat.and_two_pow_sub_one_eq_mod a 2

theorem and15 (a : ℕ) : a &&& 15 = a % 16 := Nat.and_two_pow_sub_one_eq_mod a 4

theorem step1 (n x : ℕ) (hx : x < 4 ^ n) :
    (x / 2) &&& blockMask 2 1 n ≤ x ∧ x - ((x / 2) &&& blockMask 2 1 n) = blockMap 2 (bitSum 2) n x := by
  induction n generalizing x with
  | zero => simp at hx; subst hx; simp [blockMap]
  | succ n ih =>
    obtain ⟨h1, h2⟩ := ih (x / 4) (by rw [pow_succ] at hx; omega)
    have e : (x / 2) &&& blockMask 2 1 (n + 1) =
        ((x / 2) % 4 &&& 1) + 4 * ((x / 4 / 2) &&& blockMask 2 1 n) := by
      have := land_block 2 ((x / 2) % 4) 1 (x / 4 / 2) (blockMask 2 1 n) (by omega) (by omega)
      rw [show 2 ^ 2 = 4 from rfl] at this
      rw [← this, blockMask_succ]
      congr 1
      omega
    have hb : bitSum 2 (x % 4) = x % 4 - x / 2 % 2 := by
      have h4 : x % 4 < 4 := Nat.mod_lt _ (by omega)
      have h5 : x / 2 % 2 = x % 4 / 2 := by omega
      rw [h5]
      generalize x % 4 = r at h4 ⊢
      interval_cases r <;> decide
    have e2 : x / 2 % 4 &&& 1 = x / 2 % 2 := by rw [Nat.and_one_is_mod]; omega
    rw [e, e2]
    rw [blockMap_succ, show 2 ^ 2 = 4 from rfl, ← h2, hb]
    omega

theorem step2 (n x : ℕ) (hx : x < 16 ^ n) :
    (blockMap 2 (bitSum 2) (2 * n) x &&& blockMask 4 3 n) +
      ((blockMap 2 (bitSum 2) (2 * n) x / 4) &&& blockMask 4 3 n) = blockMap 4 (bitSum 4) n x := by
  induction n generalizing x with
  | zero => simp [blockMap]
  | succ n ih =>
    have h := ih (x / 16) (by rw [pow_succ] at hx; omega)
    rw [show 2 * (n + 1) = 2 * n + 1 + 1 by ring]
    rw [blockMap_succ 4, show 2 ^ 4 = 16 from rfl, ← h, blockMap_succ, blockMap_succ,
      show 2 ^ 2 = 4 from rfl]
    have e0 : x / 4 / 4 = x / 16 := by omega
    rw [e0]
    have b1 := bitSum_le 2 (x % 4)
    have b2 := bitSum_le 2 (x / 4 % 4)
    have b3 : bitSum 4 (x % 16) = bitSum 2 (x % 4) + bitSum 2 (x / 4 % 4) := by
      have e1 := bitSum_mod 2 x
      have e2 := bitSum_mod 2 (x / 4)
      have e3 := bitSum_mod 4 x
      have e4 := bitSum_add 2 2 x
      norm_num at e1 e2 e3 e4
      omega
    rw [b3]
    generalize bitSum 2 (x % 4) = u at *
    generalize bitSum 2 (x / 4 % 4) = v at *
    generalize blockMap 2 (bitSum 2) (2 * n) (x / 16) = B at *
    have l1 : (u + 4 * (v + 4 * B)) &&& blockMask 4 3 (n + 1) = u + 16 * (B &&& blockMask 4 3 n) := by
      have := land_block 4 (u + 4 * v) 3 B (blockMask 4 3 n) (by omega) (by omega)
      rw [show 2 ^ 4 = 16 from rfl] at this
      rw [blockMask_succ, show 2 ^ 4 = 16 from rfl, show u + 4 * (v + 4 * B) = u + 4 * v + 16 * B by ring, this, and3]
      congr 1
      omega
    have l2 : ((u + 4 * (v + 4 * B)) / 4) &&& blockMask 4 3 (n + 1) =
        v + 16 * (B / 4 &&& blockMask 4 3 n) := by
      have := land_block 4 (v + 4 * (B % 4)) 3 (B / 4) (blockMask 4 3 n) (by omega) (by omega)
      rw [show 2 ^ 4 = 16 from rfl] at this
      rw [blockMask_succ, show 2 ^ 4 = 16 from rfl,
        show (u + 4 * (v + 4 * B)) / 4 = v + 4 * (B % 4) + 16 * (B / 4) by omega, this, and3]
      congr 1
      omega
    rw [l1, l2]
    ring

theorem step3 (n x : ℕ) (hx : x < 256 ^ n) :
    ((blockMap 4 (bitSum 4) (2 * n) x + blockMap 4 (bitSum 4) (2 * n) x / 16) &&& blockMask 8 15 n)
      = blockMap 8 (bitSum 8) n x := by
  induction n generalizing x with
  | zero => simp [blockMap]
  | succ n ih =>
    have h := ih (x / 256) (by rw [pow_succ] at hx; omega)
    rw [show 2 * (n + 1) = 2 * n + 1 + 1 by ring]
    rw [blockMap_succ 8, show 2 ^ 8 = 256 from rfl, ← h, blockMap_succ, blockMap_succ,
      show 2 ^ 4 = 16 from rfl]
    have e0 : x / 16 / 16 = x / 256 := by omega
    rw [e0]
    have b1 := bitSum_le 4 (x % 16)
    have b2 := bitSum_le 4 (x / 16 % 16)
    have b3 : bitSum 8 (x % 256) = bitSum 4 (x % 16) + bitSum 4 (x / 16 % 16) := by
      rw [show 16 = 2 ^ 4 from rfl, bitSum_mod, bitSum_mod, show 256 = 2 ^ 8 from rfl, bitSum_mod,
        ← bitSum_add]
    rw [b3]
    generalize bitSum 4 (x % 16) = u at *
    generalize bitSum 4 (x / 16 % 16) = v at *
    generalize hB : blockMap 4 (bitSum 4) (2 * n) (x / 256) = B at *
    have hBd : B % 16 ≤ 4 := by
      rw [← hB]
      cases hn : 2 * n with
      | zero => simp [blockMap]
      | succ k =>
        rw [blockMap_succ]
        have := bitSum_le 4 (x / 256 % 2 ^ 4)
        omega
    have := land_block 8 (u + v + 16 * (v + B % 16)) 15 (B + B / 16) (blockMask 8 15 n)
      (by omega) (by omega)
    rw [show 2 ^ 8 = 256 from rfl] at this
    rw [blockMask_succ, show 2 ^ 8 = 256 from rfl,
      show u + 16 * (v + 16 * B) + (u + 16 * (v + 16 * B)) / 16 =
        u + v + 16 * (v + B % 16) + 256 * (B + B / 16) by omega, this, and15]
    congr 1
    omega

theorem blockMask_top (n : ℕ) : blockMask 8 1 (n + 1) = blockMask 8 1 n + 256 ^ n := by
  induction n with
  | zero => rfl
  | succ n ih =>
    rw [blockMask_succ 8 1 (n + 1)]
    conv_lhs => rw [ih]
    rw [blockMask_succ 8 1 n]
    ring

theorem popcnt_mul (n x : ℕ) : ∃ Q R, blockMap 8 (bitSum 8) (n + 1) x * blockMask 8 1 (n + 1) =
    256 ^ (n + 1) * Q + 256 ^ n * bitSum (8 * (n + 1)) x + R ∧ R ≤ 8 * n * blockMask 8 1 n := by
  induction n generalizing x with
  | zero =>
    refine ⟨0, 0, ?_, by omega⟩
    simp only [blockMap, blockMask]
    rw [bitSum_mod]; simp
  | succ n ih =>
    obtain ⟨Q, R, h1, h2⟩ := ih (x / 2 ^ 8)
    rw [blockMap_succ, bitSum_mod]
    have hd := bitSum_le 8 x
    have hs : bitSum (8 * (n + 1 + 1)) x = bitSum 8 x + bitSum (8 * (n + 1)) (x / 2 ^ 8) := by
      rw [show 8 * (n + 1 + 1) = 8 + 8 * (n + 1) by ring, bitSum_add]
    refine ⟨Q + blockMap 8 (bitSum 8) (n + 1) (x / 2 ^ 8), 256 * R + bitSum 8 x * blockMask 8 1 (n + 1),
      ?_, ?_⟩
    · rw [blockMask_top (n + 1), hs]
      generalize blockMap 8 (bitSum 8) (n + 1) (x / 2 ^ 8) = W at *
      generalize blockMask 8 1 (n + 1) = H at *
      have e : (bitSum 8 x + 2 ^ 8 * W) * (H + 256 ^ (n + 1)) =
          bitSum 8 x * H + bitSum 8 x * 256 ^ (n + 1) + 256 * (W * H) + 256 ^ (n + 1 + 1) * W := by ring
      rw [e, h1]
      ring
    · have e := blockMask_succ 8 1 n
      have h3 : bitSum 8 x * blockMask 8 1 (n + 1) ≤ 8 * blockMask 8 1 (n + 1) := Nat.mul_le_mul_right _ hd
      have h4 : 8 * (n + 1) * blockMask 8 1 (n + 1) = 8 * n * blockMask 8 1 (n + 1) + 8 * blockMask 8 1 (n + 1) := by
        ring
      have h5 : 8 * n * blockMask 8 1 (n + 1) = 8 * n + 256 * (8 * n * blockMask 8 1 n) := by
        rw [e]; ring
      omega

theorem popcnt_final (x : ℕ) :
    blockMap 8 (bitSum 8) 8 x * 0x0101010101010101 % 2 ^ 64 / 2 ^ 56 = bitSum 64 x := by
  obtain ⟨Q, R, h1, h2⟩ := popcnt_mul 7 x
  have m8 : blockMask 8 1 (7 + 1) = 0x0101010101010101 := by decide
  have m7 : blockMask 8 1 7 = 0x01010101010101 := by decide
  rw [m8] at h1
  rw [m7] at h2
  rw [h1]
  have hb : bitSum (8 * (7 + 1)) x ≤ 64 := bitSum_le _ x
  show _ = bitSum (8 * (7 + 1)) x
  generalize bitSum (8 * (7 + 1)) x = S at *
  clear h1 m8 m7
  rw [show 256 ^ (7 + 1) = 2 ^ 64 by norm_num, show 256 ^ 7 = 2 ^ 56 by norm_num]
  omega

theorem popcnt64_ok (x : BitVec 64) : (popcnt64 x).toNat = bitSum 64 x.toNat := by
  have hx := x.isLt
  obtain ⟨a1, a2⟩ := step1 32 x.toNat (by norm_num; omega)
  have m1 : blockMask 2 1 32 = 0x5555555555555555 := by decide
  have m2 : blockMask 4 3 16 = 0x3333333333333333 := by decide
  have m4 : blockMask 8 15 8 = 0x0F0F0F0F0F0F0F0F := by decide
  rw [m1] at a1 a2
  have a3 := step2 16 x.toNat (by norm_num; omega)
  have a4 := step3 8 x.toNat (by norm_num; omega)
  rw [m2] at a3
  rw [m4] at a4
  unfold popcnt64
  simp only
  have t1 : (x - ((x >>> 1) &&& 0x5555555555555555#64)).toNat = blockMap 2 (bitSum 2) 32 x.toNat := by
    have e : ((x >>> 1) &&& 0x5555555555555555#64).toNat = x.toNat / 2 &&& 0x5555555555555555 := by
      rw [BitVec.toNat_and, BitVec.toNat_ushiftRight, Nat.shiftRight_eq_div_pow]; rfl
    rw [BitVec.toNat_sub_of_le (by rw [BitVec.le_def, e]; exact a1), e, a2]
  generalize x - ((x >>> 1) &&& 0x5555555555555555#64) = y1 at *
  have t2 : ((y1 &&& 0x3333333333333333#64) + ((y1 >>> 2) &&& 0x3333333333333333#64)).toNat =
      blockMap 4 (bitSum 4) 16 x.toNat := by
    have e1 : (y1 &&& 0x3333333333333333#64).toNat = y1.toNat &&& 0x3333333333333333 := by
      rw [BitVec.toNat_and]; rfl
    have e2 : ((y1 >>> 2) &&& 0x3333333333333333#64).toNat = y1.toNat / 4 &&& 0x3333333333333333 := by
      rw [BitVec.toNat_and, BitVec.toNat_ushiftRight, Nat.shiftRight_eq_div_pow]; rfl
    have l1 : y1.toNat &&& 0x3333333333333333 ≤ 0x3333333333333333 := Nat.and_le_right
    have l2 : y1.toNat / 4 &&& 0x3333333333333333 ≤ 0x3333333333333333 := Nat.and_le_right
    rw [BitVec.toNat_add, e1, e2, Nat.mod_eq_of_lt (by omega), t1, a3]
  generalize (y1 &&& 0x3333333333333333#64) + ((y1 >>> 2) &&& 0x3333333333333333#64) = y2 at *
  have hb : blockMap 4 (bitSum 4) 16 x.toNat ≤ 0x4444444444444444 := by
    have key : ∀ n z, blockMap 4 (bitSum 4) n z ≤ blockMask 4 4 n := by
      intro n
      induction n with
      | zero => intro z; simp [blockMap]
      | succ n ih =>
        intro z
        rw [blockMap_succ, blockMask_succ]
        have := bitSum_le 4 (z % 2 ^ 4)
        have := ih (z / 2 ^ 4)
        omega
    have := key 16 x.toNat
    have m : blockMask 4 4 16 = 0x4444444444444444 := by decide
    omega
  have t3 : ((y2 + (y2 >>> 4)) &&& 0x0F0F0F0F0F0F0F0F#64).toNat = blockMap 8 (bitSum 8) 8 x.toNat := by
    have e1 : (y2 >>> 4).toNat = y2.toNat / 16 := by
      rw [BitVec.toNat_ushiftRight, Nat.shiftRight_eq_div_pow]
    rw [BitVec.toNat_and, BitVec.toNat_add, e1, Nat.mod_eq_of_lt (by omega), t2]
    exact a4
  generalize (y2 + (y2 >>> 4)) &&& 0x0F0F0F0F0F0F0F0F#64 = y3 at *
  rw [BitVec.toNat_ushiftRight, BitVec.toNat_mul, t3, Nat.shiftRight_eq_div_pow]
  exact popcnt_final x.toNat

/-! ## bisection -/

theorem upperBound_ok {v : Vec ℕ} {n : ℕ} (ht : PrimeTable v n) (x len first : ℕ) (hf : 1 ≤ first)
    (hlen : first + len ≤ n + 1) (h1 : ∀ i, 1 ≤ i → i < first → prm i ≤ x)
    (h2 : ∀ i, first + len ≤ i → i ≤ n → x < prm i) :
    Ok (upperBound v first len x) (fun r => 1 ≤ r ∧ r ≤ n + 1 ∧ (∀ i, 1 ≤ i → i < r → prm i ≤ x) ∧
      (∀ i, r ≤ i → i ≤ n → x < prm i)) := by
  induction len using Nat.strongRecOn generalizing first with
  | _ len ih =>
    unfold upperBound
    refine Ok.ite (fun h => ?_) (fun h => ?_)
    · subst h; exact Ok.ok ⟨hf, by omega, h1, fun i hi hn => h2 i (by omega) hn⟩
    · dsimp only
      rw [ht.rd (by omega) (by omega)]
      simp only [ok_bind]
      refine Ok.ite (fun hlt => ?_) (fun hge => ?_)
      · refine ih (len / 2) (by omega) first hf (by omega) h1 (fun i hi hn => ?_)
        exact lt_of_lt_of_le hlt (prm_le_prm hi)
      · refine ih (len - len / 2 - 1) (by omega) _ (by omega) (by omega) (fun i hi hi2 => ?_)
          (fun i hi hn => h2 i (by omega) hn)
        exact le_trans (prm_le_prm (by omega : i ≤ first + len / 2)) (by omega)

theorem piBsearch_ok {v : Vec ℕ} {n : ℕ} (ht : PrimeTable v n) (x : ℕ) (hx : x < prm (n + 1)) :
    piBsearch v x = .ok (π x) := by
  rw [← ok_iff_eq]
  unfold piBsearch
  have hs := ht.1
  rw [csub_ok (by omega), hs]
  simp only [ok_bind]
  refine Ok.bind (upperBound_ok ht x (n + 1 - 1) 1 le_rfl (by omega) (by omega) (by omega))
    (fun r hr => ?_)
  obtain ⟨r1, r2, r3, r4⟩ := hr
  rw [csub_ok r1]
  refine Ok.ok ?_
  apply le_antisymm
  · rcases Nat.eq_or_lt_of_le r1 with h | h
    · omega
    · exact (prm_le_iff_le_pi (by omega)).1 (r3 (r - 1) (by omega) (by omega))
  · by_contra hc
    push Not at hc
    have hr' : r ≤ π x := by omega
    have := (prm_le_iff_le_pi (i := r) (by omega)).2 hr'
    rcases Nat.lt_or_ge n r with h | h
    · have : r = n + 1 := by omega
      subst this; omega
    · have := r4 r le_rfl h; omega

/-! ## fast_div -/

theorem fastDivSame_ok (szX x y : ℕ) (hy : 0 < y) : fastDivSame szX x y = .ok (x / y) := by
  unfold fastDivSame
  simp only
  have := Nat.one_le_two_pow (n := fastdivBits szX)
  split
  · rename_i h
    rw [Nat.mod_eq_of_lt (by omega), Nat.mod_eq_of_lt (by omega), cdiv_ok hy]
  · exact cdiv_ok hy

theorem fastDivWide_ok (szX x y : ℕ) (hy : 0 < y) (hw : y < 2 ^ fastdivBits szX) :
    fastDivWide szX x y = .ok (x / y) := by
  unfold fastDivWide
  simp only
  have := Nat.one_le_two_pow (n := fastdivBits szX)
  split
  · rename_i h
    rw [Nat.mod_eq_of_lt (by omega), Nat.mod_eq_of_lt (by omega), cdiv_ok hy]
  · exact cdiv_ok hy

end PS
