import Verif.Proof.PsvSeg
import Verif.Model.PsvIter

/-!
# From sieve bytes to primes
-/

namespace PS
namespace Psv

/-! ## Reading eight bytes as one word -/

theorem littleEndian_ok {S : Vec Byte} {si : ℕ} (h : si + 8 ≤ S.size) :
    Ok (littleEndian S si) (fun n => n < 2 ^ 64 ∧ ∀ j < 64, n.testBit j = bitAt S (si + j / 8) (j % 8)) := by
  unfold littleEndian
  refine Ok.mono (forUp_ok (Inv := fun k (n : ℕ) => n < 2 ^ (8 * k) ∧
      ∀ j < 8 * k, n.testBit j = bitAt S (si + j / 8) (j % 8)) ⟨by norm_num, fun j hj => by omega⟩ (by norm_num) ?_)
      (fun n h => h)
  rintro k n - hk ⟨h1, h2⟩
  rw [Vec.rd_ok (by omega)]
  simp only [ok_bind]
  have hb : (S.get (si + k)).toNat < 2 ^ 8 := (S.get (si + k)).isLt
  have he : n + (S.get (si + k)).toNat <<< (8 * k) = 2 ^ (8 * k) * (S.get (si + k)).toNat + n := by
    rw [Nat.shiftLeft_eq]
    ring
  rw [he]
  refine Ok.pure ⟨?_, fun j hj => ?_⟩
  · rw [show 8 * (k + 1) = 8 * k + 8 by ring, pow_add]
    have : 2 ^ (8 * k) * ((S.get (si + k)).toNat + 1) ≤ 2 ^ (8 * k) * 2 ^ 8 := Nat.mul_le_mul_left _ hb
    rw [Nat.mul_add] at this
    omega
  · rw [Nat.testBit_two_pow_mul_add _ h1]
    by_cases hj2 : j < 8 * k
    · rw [if_pos hj2]
      exact h2 j hj2
    · rw [if_neg hj2]
      unfold bitAt
      have e1 : j / 8 = k := by omega
      have e2 : j % 8 = j - 8 * k := by omega
      rw [e1, e2]
      rfl

/-! ## The lowest set bit -/

/-- `k` is the lowest set bit of `n`. -/
def Low (n k : ℕ) : Prop := n.testBit k = true ∧ ∀ j < k, n.testBit j = false

theorem low_exists {n : ℕ} (h : n ≠ 0) (h64 : n < 2 ^ 64) : ∃ k < 64, Low n k := by
  have hex : ∃ k, n.testBit k = true := by
    by_contra hc
    push Not at hc
    refine h (Nat.eq_of_testBit_eq (fun i => ?_))
    rw [Nat.zero_testBit]
    simpa using hc i
  classical
  refine ⟨Nat.find hex, ?_, Nat.find_spec hex, fun j hj => by simpa using Nat.find_min hex hj⟩
  by_contra hc
  have h1 := Nat.find_spec hex
  rw [Nat.testBit_lt_two_pow (lt_of_lt_of_le h64 (Nat.pow_le_pow_right (by norm_num) (by omega)))] at h1
  cases h1

theorem low_form {n k : ℕ} (h : Low n k) : ∃ q, n = 2 ^ k * (2 * q + 1) := by
  have h0 : n % 2 ^ k = 0 := by
    refine Nat.eq_of_testBit_eq (fun i => ?_)
    rw [Nat.testBit_mod_two_pow, Nat.zero_testBit]
    by_cases hi : i < k
    · rw [h.2 i hi, Bool.and_false]
    · simp [hi]
  have h1 : (n / 2 ^ k) % 2 = 1 := by
    have := h.1
    rw [Nat.testBit_eq_decide_div_mod_eq] at this
    simpa using this
  refine ⟨n / 2 ^ k / 2, ?_⟩
  have h2 : 2 * (n / 2 ^ k / 2) + 1 = n / 2 ^ k := by omega
  rw [h2]
  have := Nat.div_add_mod n (2 ^ k)
  omega

theorem pred_form (k q : ℕ) : 2 ^ k * (2 * q + 1) - 1 = 2 ^ k * (2 * q) + (2 ^ k - 1) := by
  have : 0 < 2 ^ k := by positivity
  rw [Nat.mul_add, Nat.mul_one]
  omega

theorem testBit_form {k q j : ℕ} :
    (2 ^ k * (2 * q + 1)).testBit j = if j < k then false else if j = k then true else q.testBit (j - k - 1) := by
  have h := Nat.testBit_two_pow_mul_add (2 * q + 1) (b := 0) (i := k) (by positivity) j
  rw [Nat.add_zero] at h
  rw [h]
  split
  · simp
  · split
    · next hk =>
      subst hk
      simp
    · next h1 h2 =>
      obtain ⟨d, rfl⟩ : ∃ d, j = k + (d + 1) := ⟨j - k - 1, by omega⟩
      rw [show k + (d + 1) - k = d + 1 by omega, show d + 1 - 1 = d by omega, Nat.testBit_succ]
      congr 1
      omega

theorem testBit_pred_form {k q j : ℕ} :
    (2 ^ k * (2 * q + 1) - 1).testBit j = if j < k then true else if j = k then false else q.testBit (j - k - 1) := by
  have hp : 0 < 2 ^ k := by positivity
  rw [pred_form, Nat.testBit_two_pow_mul_add _ (by omega)]
  split
  · next h =>
    rw [Nat.testBit_two_pow_sub_one]
    simp [h]
  · split
    · next hk =>
      subst hk
      simp
    · next h1 h2 =>
      obtain ⟨d, rfl⟩ : ∃ d, j = k + (d + 1) := ⟨j - k - 1, by omega⟩
      rw [show k + (d + 1) - k = d + 1 by omega, show d + 1 - 1 = d by omega, Nat.testBit_succ]
      congr 1
      omega

/-- `bits &= bits - 1` clears the lowest set bit. -/
theorem clear_low {n k : ℕ} (h : Low n k) (j : ℕ) : (n &&& (n - 1)).testBit j = (n.testBit j && decide (k < j)) := by
  obtain ⟨q, rfl⟩ := low_form h
  rw [Nat.testBit_and, testBit_form, testBit_pred_form]
  rcases lt_trichotomy j k with h1 | h1 | h1
  · simp [h1]
  · subst h1
    simp
  · rw [if_neg (by omega), if_neg (by omega), if_neg (by omega), if_neg (by omega)]
    simp [h1]

/-- `bits ^ (bits - 1)` is the mask up to the lowest set bit. -/
theorem xor_low {n k : ℕ} (h : Low n k) : n ^^^ (n - 1) = 2 ^ (k + 1) - 1 := by
  obtain ⟨q, rfl⟩ := low_form h
  refine Nat.eq_of_testBit_eq (fun j => ?_)
  rw [Nat.testBit_xor, testBit_form, testBit_pred_form, Nat.testBit_two_pow_sub_one]
  rcases lt_trichotomy j k with h1 | h1 | h1
  · simp [h1]
    omega
  · subst h1
    simp
  · rw [if_neg (by omega), if_neg (by omega), if_neg (by omega), if_neg (by omega)]
    simp
    omega

/-- The offset of bit `j` of a word, `lb 64` being the end. -/
def lb (j : ℕ) : ℕ := 30 * (j / 8) + bv (j % 8)

theorem bitValues_ok : bitValues.size = 64 ∧ ∀ j < 64, bitValues.get j = lb j := by decide +kernel

theorem lb_mono_fin : ∀ j < 64, lb j < lb (j + 1) := by decide +kernel

theorem lb_mono {i j : ℕ} (h : i < j) (hj : j ≤ 64) : lb i < lb j := by
  induction j with
  | zero => omega
  | succ j ih =>
    have h1 := lb_mono_fin j (by omega)
    rcases Nat.lt_or_ge i j with h2 | h2
    · exact lt_trans (ih h2 (by omega)) h1
    · have : i = j := by omega
      subst this
      exact h1

theorem bruijn_fin : bruijnBitValues.size = 64 ∧ ∀ k < 64,
    u64 ((2 ^ (k + 1) - 1) * 0x3F08A4C6ACB9DBD) >>> 58 < 64 ∧
    bruijnBitValues.get (u64 ((2 ^ (k + 1) - 1) * 0x3F08A4C6ACB9DBD) >>> 58) = lb k := by decide +kernel

theorem ctz64_ok {n k : ℕ} (hk : k < 64) (h : Low n k) : ctz64 n = .ok k := by
  have : (List.range 64).find? (fun k => n.testBit k) = some k := by
    rw [List.find?_range_eq_some]
    exact ⟨h.1, List.mem_range.2 hk, fun j hj => by simpa using h.2 j hj⟩
  unfold ctz64
  rw [this]

/-- **Erat::nextPrime**: both variants give the number of the lowest set bit. -/
theorem nextPrime_ok (env : Env) {n k low : ℕ} (hk : k < 64) (h : Low n k) (h64 : n < 2 ^ 64) :
    nextPrime env n low = .ok (u64 (low + lb k)) := by
  unfold nextPrime
  cases env.hasCtz
  · have h0 : n ≠ 0 := by
      rintro rfl
      have := h.1
      rw [Nat.zero_testBit] at this
      cases this
    have hx : u64 (n + max64) = n - 1 := by
      unfold u64
      rw [max64_eq]
      omega
    obtain ⟨b1, b2⟩ := bruijn_fin.2 k hk
    simp only [Bool.false_eq_true, if_false]
    rw [hx, xor_low h, Vec.rd_ok (by rw [bruijn_fin.1]; exact b1), b2]
    rfl
  · simp only [if_true]
    rw [ctz64_ok hk h]
    simp only [ok_bind]
    rw [Vec.rd_ok (by rw [bitValues_ok.1]; exact hk), bitValues_ok.2 k hk]
    rfl

/-! ## Enumerations -/

/-- `v[i], …, v[n-1]` are the numbers with `Q` strictly between `c` and `B`, in increasing order. -/
structure Lst (v : Vec ℕ) (i n c B : ℕ) (Q : ℕ → Prop) : Prop where
  le : i ≤ n
  sz : n ≤ v.size
  mem : ∀ j, i ≤ j → j < n → c < v.get j ∧ v.get j < B ∧ Q (v.get j)
  mono : ∀ j l, i ≤ j → j < l → l < n → v.get j < v.get l
  all : ∀ x, c < x → x < B → Q x → ∃ j, i ≤ j ∧ j < n ∧ v.get j = x

/-- The next number `> c` with `Q` is `x`. -/
def Least (Q : ℕ → Prop) (c x : ℕ) : Prop := c < x ∧ Q x ∧ ∀ y, c < y → Q y → x ≤ y

theorem Lst.head {v : Vec ℕ} {i n c B : ℕ} {Q : ℕ → Prop} (h : Lst v i n c B Q) (hi : i < n) :
    Least Q c (v.get i) ∧ Lst v (i + 1) n (v.get i) B Q := by
  obtain ⟨h1, h2, h3⟩ := h.mem i (le_refl _) hi
  refine ⟨⟨h1, h3, fun y hy hQ => ?_⟩, ⟨hi, h.sz, fun j hj hjn => ?_, fun j l hj hl hn => h.mono j l (by omega) hl hn,
    fun x hx hB hQ => ?_⟩⟩
  · by_contra hc
    obtain ⟨j, hj1, hj2, hj3⟩ := h.all y hy (by omega) hQ
    rcases Nat.lt_or_ge i j with hij | hij
    · have := h.mono i j (le_refl _) hij hj2
      omega
    · have : j = i := by omega
      subst this
      omega
  · exact ⟨h.mono i j (le_refl _) hj hjn, (h.mem j (by omega) hjn).2⟩
  · obtain ⟨j, hj1, hj2, hj3⟩ := h.all x (by omega) hB hQ
    refine ⟨j, ?_, hj2, hj3⟩
    by_contra hc
    have : j = i := by omega
    subst this
    omega

theorem Lst.empty {v w : Vec ℕ} {i n c B : ℕ} {Q : ℕ → Prop} (h : Lst v i n c B Q) (hi : n ≤ i) (k : ℕ) (hk : k ≤ w.size) :
    Lst w k k c B Q where
  le := le_refl _
  sz := hk
  mem := fun j h1 h2 => by omega
  mono := fun j l h1 h2 h3 => by omega
  all := fun x h1 h2 h3 => by
    obtain ⟨j, hj⟩ := h.all x h1 h2 h3
    omega

/-- Nothing more up to `B'`. -/
theorem Lst.skip {v : Vec ℕ} {i n c B B' : ℕ} {Q : ℕ → Prop} (h : Lst v i n c B Q) (hB : B ≤ B')
    (hno : ∀ x, B ≤ x → x < B' → ¬ Q x) : Lst v i n c B' Q where
  le := h.le
  sz := h.sz
  mem := fun j h1 h2 => ⟨(h.mem j h1 h2).1, lt_of_lt_of_le (h.mem j h1 h2).2.1 hB, (h.mem j h1 h2).2.2⟩
  mono := h.mono
  all := fun x h1 h2 h3 => by
    rcases Nat.lt_or_ge x B with hx | hx
    · exact h.all x h1 hx h3
    · exact absurd h3 (hno x hx h2)

theorem Lst.snoc {v w : Vec ℕ} {i n c B B' x : ℕ} {Q : ℕ → Prop} (h : Lst v i n c B Q) (hc : c < x) (hB : B ≤ x) (hx : x < B')
    (hQ : Q x) (huniq : ∀ y, B ≤ y → y < B' → Q y → y = x) (hw : n < w.size) (hn : w.get n = x)
    (hold : ∀ j < n, w.get j = v.get j) : Lst w i (n + 1) c B' Q where
  le := by have := h.le; omega
  sz := hw
  mem := fun j h1 h2 => by
    rcases Nat.lt_or_ge j n with hj | hj
    · rw [hold j hj]
      obtain ⟨h3, h4, h5⟩ := h.mem j h1 hj
      exact ⟨h3, by omega, h5⟩
    · have : j = n := by omega
      subst this
      rw [hn]
      exact ⟨hc, hx, hQ⟩
  mono := fun j l h1 h2 h3 => by
    rcases Nat.lt_or_ge l n with hl | hl
    · rw [hold j (by omega), hold l hl]
      exact h.mono j l h1 h2 hl
    · have : l = n := by omega
      subst this
      rw [hn, hold j (by omega)]
      have := (h.mem j h1 (by omega)).2.1
      omega
  all := fun y h1 h2 h3 => by
    rcases Nat.lt_or_ge y B with hy | hy
    · obtain ⟨j, j1, j2, j3⟩ := h.all y h1 hy h3
      exact ⟨j, j1, by omega, by rw [hold j j2]; exact j3⟩
    · exact ⟨n, h.le, by omega, by rw [hn]; exact (huniq y hy h2 h3).symm⟩

/-- Two enumerations, one after the other. -/
theorem Lst.append {v w : Vec ℕ} {a i n c c' B : ℕ} {Q : ℕ → Prop} (h : Lst v a i c (c' + 1) Q) (h' : Lst w i n c' B Q)
    (hc : c ≤ c') (hB : c' < B) (hold : ∀ j < i, w.get j = v.get j) : Lst w a n c B Q where
  le := h.le.trans h'.le
  sz := h'.sz
  mem := fun j h1 h2 => by
    rcases Nat.lt_or_ge j i with hj | hj
    · rw [hold j hj]
      obtain ⟨h3, h4, h5⟩ := h.mem j h1 hj
      exact ⟨h3, by omega, h5⟩
    · obtain ⟨h3, h4, h5⟩ := h'.mem j hj h2
      exact ⟨by omega, h4, h5⟩
  mono := fun j l h1 h2 h3 => by
    rcases Nat.lt_or_ge l i with hl | hl
    · rw [hold j (by omega), hold l hl]
      exact h.mono j l h1 h2 hl
    · rcases Nat.lt_or_ge j i with hj | hj
      · have h4 := (h.mem j h1 hj).2.1
        have h5 := (h'.mem l hl h3).1
        rw [hold j hj]
        omega
      · exact h'.mono j l hj h2 h3
  all := fun x h1 h2 h3 => by
    rcases Nat.lt_or_ge c' x with hx | hx
    · obtain ⟨j, j1, j2, j3⟩ := h'.all x hx h2 h3
      exact ⟨j, h.le.trans j1, j2, j3⟩
    · obtain ⟨j, j1, j2, j3⟩ := h.all x h1 (by omega) h3
      exact ⟨j, j1, lt_of_lt_of_le j2 h'.le, by rw [hold j j2]; exact j3⟩

theorem Lst.congrQ {v : Vec ℕ} {i n c B : ℕ} {Q Q' : ℕ → Prop} (h : Lst v i n c B Q)
    (hq : ∀ x, c < x → x < B → (Q x ↔ Q' x)) : Lst v i n c B Q' where
  le := h.le
  sz := h.sz
  mem := fun j h1 h2 => by
    obtain ⟨h3, h4, h5⟩ := h.mem j h1 h2
    exact ⟨h3, h4, (hq _ h3 h4).1 h5⟩
  mono := h.mono
  all := fun x h1 h2 h3 => h.all x h1 h2 ((hq x h1 h2).2 h3)

/-! ## Emitting the bits of one word -/

/-- The word `bits` describes the numbers with `Q` from `b + 7` to `b + 246`. -/
structure Word (Q : ℕ → Prop) (b bits : ℕ) : Prop where
  lt : bits < 2 ^ 64
  bit : ∀ j < 64, bits.testBit j = true ↔ Q (b + lb j)
  only : ∀ n, b + 7 ≤ n → n < b + 247 → Q n → ∃ j < 64, n = b + lb j
  fits : ∀ n, b + 7 ≤ n → n < b + 247 → Q n → n < 2 ^ 64

theorem u64_low {b x : ℕ} (h : b + x < 2 ^ 64) : u64 (u64 b + x) = b + x := by
  unfold u64
  omega

/-- The next step of a word from bit `T` on. -/
theorem Word.step {Q : ℕ → Prop} {b bits T cur k : ℕ} (h : Word Q b bits) (hT : T ≤ 64)
    (hcur : ∀ j < 64, cur.testBit j = (bits.testBit j && decide (T ≤ j))) (hk : k < 64) (hl : Low cur k) :
    T ≤ k ∧ Q (b + lb k) ∧ b + lb k < 2 ^ 64 ∧ (∀ y, b + lb T ≤ y → y < b + lb (k + 1) → Q y → y = b + lb k) ∧
    (∀ j < 64, (cur &&& (cur - 1)).testBit j = (bits.testBit j && decide (k + 1 ≤ j))) := by
  have h1 := hl.1
  rw [hcur k hk, Bool.and_eq_true, decide_eq_true_iff] at h1
  have hlb : ∀ j ≤ 64, 7 ≤ lb j := fun j hj => by
    rcases Nat.eq_zero_or_pos j with h0 | h0
    · subst h0
      decide
    · exact le_of_lt (lb_mono (i := 0) h0 hj)
  have hub : ∀ j < 64, lb j < 247 := fun j hj => lb_mono (j := 64) hj (le_refl _)
  have hQ := (h.bit k hk).1 h1.1
  have h7 := hlb k (by omega)
  have h247 := hub k hk
  refine ⟨h1.2, hQ, h.fits _ (by omega) (by omega) hQ, fun y hy1 hy2 hy => ?_, fun j hj => ?_⟩
  · have h7T := hlb T hT
    have hk1 : lb (k + 1) ≤ 247 := by
      rcases Nat.lt_or_ge (k + 1) 64 with h2 | h2
      · exact le_of_lt (hub _ h2)
      · have : k + 1 = 64 := by omega
        rw [this]
        decide
    obtain ⟨j, hj, rfl⟩ := h.only y (by omega) (by omega) hy
    have hjk : j ≤ k := by
      by_contra hc
      rcases Nat.eq_or_lt_of_le (show k + 1 ≤ j by omega) with h2 | h2
      · rw [h2] at hy2
        omega
      · have := lb_mono h2 (by omega)
        omega
    have hTj : T ≤ j := by
      by_contra hc
      have := lb_mono (show j < T by omega) hT
      omega
    rcases Nat.eq_or_lt_of_le hjk with h2 | h2
    · rw [h2]
    · have h3 := hl.2 j h2
      rw [hcur j hj, (h.bit j hj).2 hy] at h3
      simp [hTj] at h3
  · rw [clear_low hl, hcur j hj]
    by_cases hkj : k < j
    · have : T ≤ j := by omega
      simp only [hkj, this, Bool.and_true, decide_true, Nat.succ_le_of_lt hkj]
    · simp only [hkj, Bool.and_false, decide_false, show ¬ k + 1 ≤ j from hkj]

theorem Word.finish {Q : ℕ → Prop} {b bits T : ℕ} (h : Word Q b bits) (hT : T ≤ 64)
    (hcur : ∀ j < 64, (0 : ℕ).testBit j = (bits.testBit j && decide (T ≤ j))) :
    b + lb T ≤ b + 247 ∧ ∀ y, b + lb T ≤ y → y < b + 247 → ¬ Q y := by
  have h0 : lb 0 = 7 := by decide
  have h64 : lb 64 = 247 := by decide
  have h7 : 7 ≤ lb T ∧ lb T ≤ 247 := by
    constructor
    · rcases Nat.eq_zero_or_pos T with h1 | h1
      · rw [h1, h0]
      · have := lb_mono h1 hT
        omega
    · rcases Nat.eq_or_lt_of_le hT with h1 | h1
      · rw [h1, h64]
      · have := lb_mono h1 (le_refl _)
        omega
  refine ⟨by omega, fun y h1 h2 hQ => ?_⟩
  obtain ⟨j, hj, rfl⟩ := h.only y (by omega) h2 hQ
  have hTj : T ≤ j := by
    by_contra hc
    have := lb_mono (show j < T by omega) hT
    omega
  have h3 := hcur j hj
  rw [Nat.zero_testBit, (h.bit j hj).2 hQ] at h3
  simp [hTj] at h3

theorem emitBits_ok (env : Env) {Q : ℕ → Prop} {b bits num c : ℕ} {v : Vec ℕ} (h : Word Q b bits) (hc : ∀ x, b + 7 ≤ x → Q x → c < x)
    (hL : Lst v 0 num c (b + 7) Q) (hroom : num + 64 ≤ v.size) :
    Ok (emitBits env bits (u64 b) num v) (fun r => Lst r.2 0 r.1 c (b + 247) Q ∧ r.2.size = v.size ∧ num ≤ r.1 ∧
      r.1 ≤ num + 64) := by
  unfold emitBits
  refine loop_okm (Inv := fun n (s : ℕ × ℕ × Vec ℕ) => ∃ T, n + T = 64 ∧ s.1 < 2 ^ 64 ∧
      (∀ j < 64, s.1.testBit j = (bits.testBit j && decide (T ≤ j))) ∧ Lst s.2.2 0 s.2.1 c (b + lb T) Q ∧
      s.2.2.size = v.size ∧ num ≤ s.2.1 ∧ s.2.1 ≤ num + T) _ 64
    ⟨0, rfl, h.lt, fun j hj => by simp, hL, rfl, le_refl _, le_refl _⟩ (by norm_num) ?_
  rintro n ⟨cur, nm, w⟩ ⟨T, hT, h1, h2, h3, h4, h5, h6⟩
  dsimp only at h1 h2 h3 h4 h5 h6 ⊢
  by_cases h0 : cur = 0
  · subst h0
    rw [if_neg (by simp)]
    obtain ⟨f1, f2⟩ := h.finish (by omega) h2
    exact Ok.pure ⟨h3.skip f1 f2, h4, h5, by dsimp only; omega⟩
  · rw [if_pos h0]
    obtain ⟨k, hk, hl⟩ := low_exists h0 h1
    obtain ⟨k1, k2, k3, k4, k5⟩ := h.step (by omega) h2 hk hl
    rw [nextPrime_ok env hk hl h1]
    simp only [ok_bind]
    rw [u64_low k3, Vec.wr_ok (by omega)]
    simp only [ok_bind]
    refine Ok.pure ⟨n - 1 - (k - T), by omega, k + 1, by omega, ?_, k5, ?_, by simp [h4], by dsimp only; omega, by dsimp only; omega⟩
    · exact lt_of_le_of_lt Nat.and_le_left h1
    · dsimp only
      have hTk : lb T ≤ lb k := by
        rcases Nat.eq_or_lt_of_le k1 with h7 | h7
        · rw [h7]
        · exact le_of_lt (lb_mono h7 (by omega))
      have h0T : 7 ≤ lb T := by
        rcases Nat.eq_zero_or_pos T with h7 | h7
        · rw [h7]; decide
        · exact le_of_lt (lb_mono (i := 0) h7 (by omega))
      refine h3.snoc (x := b + lb k) (hc _ (by omega) k2) (by omega) (by have := lb_mono_fin k hk; omega) k2 k4
        (by rw [Vec.size_set]; omega) ?_ (fun j hj => ?_)
      · rw [Vec.get_set, if_pos ⟨rfl, by omega⟩]
      · rw [Vec.get_set, if_neg (by omega)]

theorem pushBits_ok (env : Env) {Q : ℕ → Prop} {b bits c : ℕ} {v : Vec ℕ} (h : Word Q b bits) (hc : ∀ x, b + 7 ≤ x → Q x → c < x)
    {i : ℕ} (hL : Lst v i v.size c (b + 7) Q) :
    Ok (pushBits env bits (u64 b) v) (fun r => Lst r i r.size c (b + 247) Q ∧ v.size ≤ r.size ∧
      ∀ j < v.size, r.get j = v.get j) := by
  unfold pushBits
  refine loop_okm (Inv := fun n (s : ℕ × Vec ℕ) => ∃ T, n + T = 64 ∧ s.1 < 2 ^ 64 ∧
      (∀ j < 64, s.1.testBit j = (bits.testBit j && decide (T ≤ j))) ∧ Lst s.2 i s.2.size c (b + lb T) Q ∧
      v.size ≤ s.2.size ∧ ∀ j < v.size, s.2.get j = v.get j) _ 64
    ⟨0, rfl, h.lt, fun j hj => by simp, hL, le_refl _, fun _ _ => rfl⟩ (by norm_num) ?_
  rintro n ⟨cur, w⟩ ⟨T, hT, h1, h2, h3, h4, h5⟩
  dsimp only at h1 h2 h3 h4 h5 ⊢
  by_cases h0 : cur = 0
  · subst h0
    rw [if_neg (by simp)]
    obtain ⟨f1, f2⟩ := h.finish (by omega) h2
    exact Ok.pure ⟨h3.skip f1 f2, h4, h5⟩
  · rw [if_pos h0]
    obtain ⟨k, hk, hl⟩ := low_exists h0 h1
    obtain ⟨k1, k2, k3, k4, k5⟩ := h.step (by omega) h2 hk hl
    rw [nextPrime_ok env hk hl h1]
    simp only [ok_bind]
    rw [u64_low k3]
    refine Ok.pure ⟨n - 1 - (k - T), by omega, k + 1, by omega, ?_, k5, ?_, by rw [Vec.size_push]; omega, fun j hj => ?_⟩
    · exact lt_of_le_of_lt Nat.and_le_left h1
    · dsimp only
      have hTk : lb T ≤ lb k := by
        rcases Nat.eq_or_lt_of_le k1 with h7 | h7
        · rw [h7]
        · exact le_of_lt (lb_mono h7 (by omega))
      have h0T : 7 ≤ lb T := by
        rcases Nat.eq_zero_or_pos T with h7 | h7
        · rw [h7]; decide
        · exact le_of_lt (lb_mono (i := 0) h7 (by omega))
      rw [Vec.size_push]
      refine h3.snoc (x := b + lb k) (hc _ (by omega) k2) (by omega) (by have := lb_mono_fin k hk; omega) k2 k4
        (by rw [Vec.size_push]; omega) ?_ (fun j hj => ?_)
      · rw [Vec.get_push, if_pos rfl]
      · rw [Vec.get_push, if_neg (by omega)]
    · dsimp only
      rw [Vec.get_push, if_neg (by omega)]
      exact h5 j hj

/-! ## A word of a segment -/

theorem Seg.word {er : Erat} {L si bits : ℕ} {Q : ℕ → Prop} (h : Seg er L) (hst : er.stop < 2 ^ 64) (hsi : si < er.sieveSize)
    (h8 : si % 8 = 0) (hQ : ∀ n, L + 30 * si + 7 ≤ n → (Q n ↔ er.start ≤ n ∧ n ≤ er.stop ∧ n.Prime))
    (hb : bits < 2 ^ 64 ∧ ∀ j < 64, bits.testBit j = bitAt er.sieve (si + j / 8) (j % 8)) :
    Word Q (L + 30 * si) bits where
  lt := hb.1
  bit := fun j hj => by
    have hk : j % 8 < 8 := Nat.mod_lt _ (by norm_num)
    have hr := bv_range hk
    have hv : L + 30 * si + lb j = L + 30 * (si + j / 8) + bv (j % 8) := by unfold lb; omega
    rw [hb.2 j hj, hQ _ (by unfold lb; omega), hv]
    rcases Nat.lt_or_ge (si + j / 8) er.sieveSize with h1 | h1
    · exact h.bits _ h1 _ hk
    · rw [h.pad _ h1 (by omega) _ hk]
      constructor
      · intro h2
        cases h2
      · rintro ⟨-, h2, -⟩
        exfalso
        rcases h.full with h3 | h3
        · omega
        · omega
  only := fun n h1 h2 h3 => by
    obtain ⟨h4, h5, h6⟩ := (hQ n h1).1 h3
    have hc := coprime30_of_prime h6 (by omega)
    have hv := val_exists hc (by omega)
    have hk := kOf_lt n
    have hr := bv_range hk
    have hL := h.low30
    obtain ⟨i, hi⟩ : ∃ i, (n - 7) / 30 = L / 30 + si + i := ⟨(n - 7) / 30 - (L / 30 + si), by omega⟩
    refine ⟨8 * i + kOf n, by omega, ?_⟩
    unfold lb
    have e1 : (8 * i + kOf n) / 8 = i := by omega
    have e2 : (8 * i + kOf n) % 8 = kOf n := by omega
    rw [e1, e2]
    omega
  fits := fun n h1 h2 h3 => by
    obtain ⟨h4, h5, h6⟩ := (hQ n h1).1 h3
    omega

end Psv
end PS
