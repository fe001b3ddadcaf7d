import Verif.Model.PsvErat
import Mathlib.Data.Nat.GCD.Basic
import Mathlib.Tactic.Ring
import Mathlib.Tactic.Linarith

/-!
# The wheels of lib/primesieve

Bit `k` of byte `i` of a sieve array whose first byte belongs to `L` stands for the number
`L + 30 * i + bv k`.
-/

namespace PS
namespace Psv

/-- The offsets 7, 11, 13, 17, 19, 23, 29, 31 of the eight bits. -/
def bv (k : ℕ) : ℕ := [7, 11, 13, 17, 19, 23, 29, 31].getD k 0

/-- The bit that stands for `n`, for `n` coprime to 30. -/
def kOf (n : ℕ) : ℕ :=
  match n % 30 with
  | 7 => 0 | 11 => 1 | 13 => 2 | 17 => 3 | 19 => 4 | 23 => 5 | 29 => 6 | _ => 7

/-- All bits except bit `k`. -/
def maskOf (k : ℕ) : Byte := ~~~(1#8 <<< k)

theorem kOf_mod (n : ℕ) : kOf (n % 30) = kOf n := by
  unfold kOf
  rw [Nat.mod_mod]

theorem kOf_congr {a b : ℕ} (h : a % 30 = b % 30) : kOf a = kOf b := by
  rw [← kOf_mod a, h, kOf_mod]

theorem kOf_lt (n : ℕ) : kOf n < 8 := by
  unfold kOf
  split <;> omega

theorem bv_range {k : ℕ} (h : k < 8) : 7 ≤ bv k ∧ bv k ≤ 31 := by
  revert h
  revert k
  decide

theorem bv_coprime {k : ℕ} (h : k < 8) : (bv k).Coprime 30 ∧ kOf (bv k) = k := by
  revert h
  revert k
  decide +kernel

theorem bv_kOf_fin : ∀ n < 30, n.Coprime 30 → bv (kOf n) % 30 = n := by decide +kernel

theorem coprime30_mod {n : ℕ} : (n % 30).Coprime 30 ↔ n.Coprime 30 := by
  unfold Nat.Coprime
  rw [← Nat.gcd_rec, Nat.gcd_comm]

theorem coprime_mod {n m : ℕ} : (n % m).Coprime m ↔ n.Coprime m := by
  unfold Nat.Coprime
  rw [← Nat.gcd_rec, Nat.gcd_comm]

theorem bv_kOf {n : ℕ} (h : n.Coprime 30) : bv (kOf n) % 30 = n % 30 := by
  rw [← kOf_mod]
  exact bv_kOf_fin _ (Nat.mod_lt _ (by norm_num)) (coprime30_mod.2 h)

theorem bv_inj {k l : ℕ} (hk : k < 8) (hl : l < 8) (h : bv k % 30 = bv l % 30) : k = l := by
  have h1 := (bv_coprime hk).2
  have h2 := (bv_coprime hl).2
  rw [← h1, ← h2, kOf_congr h]

/-- A number determines its byte and its bit. -/
theorem val_inj {i j k l : ℕ} (hk : k < 8) (hl : l < 8) (h : 30 * i + bv k = 30 * j + bv l) : i = j ∧ k = l := by
  have h1 := bv_inj hk hl (by omega)
  subst h1
  exact ⟨by omega, rfl⟩

/-- Every number `≥ 7` coprime to 30 has a byte and a bit. -/
theorem val_exists {n : ℕ} (h : n.Coprime 30) (h7 : 7 ≤ n) : 30 * ((n - 7) / 30) + bv (kOf n) = n := by
  have h1 := bv_kOf h
  have h2 := bv_range (kOf_lt n)
  omega

theorem kOf_val {L i k : ℕ} (hL : L % 30 = 0) (hk : k < 8) : kOf (L + 30 * i + bv k) = k := by
  rw [← (bv_coprime hk).2]
  exact kOf_congr (by rw [(bv_coprime hk).2]; omega)

theorem coprime_val {L i k : ℕ} (hL : L % 30 = 0) (hk : k < 8) : (L + 30 * i + bv k).Coprime 30 := by
  rw [← coprime30_mod, show (L + 30 * i + bv k) % 30 = bv k % 30 by omega, coprime30_mod]
  exact (bv_coprime hk).1

/-! ## The tables -/

/-- What one entry `e` (at index `wi`) of a wheel has to be, for the residues `r` of the prime and `s` of the cofactor. -/
def ElemGood (w : WheelT) (r s wi : ℕ) (e : WheelElement) : Prop :=
  wi < w.wheel.size ∧ e.unsetBit = maskOf (kOf (r * s)) ∧ 0 < e.nextMultipleFactor ∧ e.nextMultipleFactor ≤ 10 ∧
    e.correct ≤ 10 ∧ (s + e.nextMultipleFactor).Coprime w.modulo ∧
    (∀ d < e.nextMultipleFactor, 0 < d → ¬ (s + d).Coprime w.modulo) ∧
    30 * e.correct + bv (kOf (r * (s + e.nextMultipleFactor))) = bv (kOf (r * s)) + r * e.nextMultipleFactor ∧
    (wi : ℤ) + e.next =
      (w.size * wheelOffsets.get r + (w.init.get ((s + e.nextMultipleFactor) % w.modulo)).2 : ℕ)

instance (w : WheelT) (r s wi : ℕ) (e : WheelElement) : Decidable (ElemGood w r s wi e) := by
  unfold ElemGood
  infer_instance

/-- What the proofs need to know about the tables of a wheel. -/
structure WheelT.Good (w : WheelT) : Prop where
  mod30 : w.modulo % 30 = 0
  pos : 0 < w.modulo
  initSize : w.init.size = w.modulo
  sz : w.size * 8 ≤ 512
  init : ∀ s < w.modulo, (s + (w.init.get s).1).Coprime w.modulo ∧
    (∀ d < (w.init.get s).1, ¬ (s + d).Coprime w.modulo) ∧
    (w.init.get ((s + (w.init.get s).1) % w.modulo)).2 = (w.init.get s).2 ∧ (w.init.get s).2 < w.size ∧
    (w.init.get s).1 < 10
  elem : ∀ r < 30, r.Coprime 30 → ∀ s < w.modulo, s.Coprime w.modulo →
    ElemGood w r s (w.size * wheelOffsets.get r + (w.init.get s).2)
      (w.wheel.get (w.size * wheelOffsets.get r + (w.init.get s).2))

theorem W30_good : W30.Good where
  mod30 := by decide +kernel
  pos := by decide +kernel
  initSize := by decide +kernel
  sz := by decide +kernel
  init := by decide +kernel
  elem := by decide +kernel

theorem W210_good : W210.Good where
  mod30 := by decide +kernel
  pos := by decide +kernel
  initSize := by decide +kernel
  sz := by decide +kernel
  init := by decide +kernel
  elem := by decide +kernel

theorem wheelOffsets_lt : ∀ r < 30, wheelOffsets.get r < 8 := by decide +kernel

theorem wheelOffsets_size : wheelOffsets.size = 30 := by decide +kernel

/-! ## The state of one sieving prime -/

/-- The sieving prime `p` is at its multiple `p * q`, which belongs to byte `idx` of an array with base `L`. -/
structure At (w : WheelT) (L p q idx wi : ℕ) : Prop where
  hq : q.Coprime w.modulo
  hwi : wi = w.size * wheelOffsets.get (p % 30) + (w.init.get (q % w.modulo)).2
  hpos : L + 30 * idx + bv (kOf (p * q)) = p * q

theorem mul_mod30 {w : WheelT} (hw : w.Good) (p q : ℕ) : (p * q) % 30 = (p % 30 * (q % w.modulo)) % 30 := by
  have h : q % w.modulo % 30 = q % 30 := Nat.mod_mod_of_dvd _ (Nat.dvd_of_mod_eq_zero hw.mod30)
  rw [Nat.mul_mod p q, Nat.mul_mod (p % 30) (q % w.modulo), h, Nat.mod_mod]

theorem Coprime_add_mod {q d m : ℕ} : (q % m + d).Coprime m ↔ (q + d).Coprime m := by
  rw [← coprime_mod (n := q % m + d), ← coprime_mod (n := q + d), Nat.mod_add_mod]

theorem At.elem {w : WheelT} (hw : w.Good) {L p q idx wi : ℕ} (hp : p.Coprime 30) (h : At w L p q idx wi) :
    wi < w.wheel.size ∧ (w.wheel.get wi).unsetBit = maskOf (kOf (p * q)) ∧ wi < w.size * 8 := by
  have he := hw.elem (p % 30) (Nat.mod_lt _ (by norm_num)) (coprime30_mod.2 hp) (q % w.modulo)
    (Nat.mod_lt _ hw.pos) (coprime_mod.2 h.hq)
  have hi := hw.init (q % w.modulo) (Nat.mod_lt _ hw.pos)
  rw [← h.hwi] at he
  refine ⟨he.1, ?_, ?_⟩
  · rw [he.2.1]
    congr 1
    exact kOf_congr (mul_mod30 hw p q).symm
  · rw [h.hwi]
    have h1 := wheelOffsets_lt (p % 30) (Nat.mod_lt _ (by norm_num))
    have h2 := hi.2.2.2.1
    calc _ < w.size * wheelOffsets.get (p % 30) + w.size := by omega
      _ = w.size * (wheelOffsets.get (p % 30) + 1) := by ring
      _ ≤ _ := Nat.mul_le_mul_left _ h1

/-- One step of a sieving prime: to the next cofactor that is coprime to the wheel. -/
theorem At.next {w : WheelT} (hw : w.Good) {L p q idx wi : ℕ} (hp : p.Coprime 30) (h : At w L p q idx wi) :
    ∃ wi', (wi : ℤ) + (w.wheel.get wi).next = (wi' : ℕ) ∧ 0 < (w.wheel.get wi).nextMultipleFactor ∧
      (w.wheel.get wi).nextMultipleFactor ≤ 10 ∧ (w.wheel.get wi).correct ≤ 10 ∧
      (∀ q', q < q' → q' < q + (w.wheel.get wi).nextMultipleFactor → ¬ q'.Coprime w.modulo) ∧
      At w L p (q + (w.wheel.get wi).nextMultipleFactor)
        (idx + ((w.wheel.get wi).nextMultipleFactor * (p / 30) + (w.wheel.get wi).correct)) wi' := by
  have he := hw.elem (p % 30) (Nat.mod_lt _ (by norm_num)) (coprime30_mod.2 hp) (q % w.modulo)
    (Nat.mod_lt _ hw.pos) (coprime_mod.2 h.hq)
  rw [← h.hwi] at he
  obtain ⟨h1, h2, h3, h4, h5, h6, h7, h8, h9⟩ := he
  refine ⟨_, h9, h3, h4, h5, fun q' ha hb hc => ?_, ⟨Coprime_add_mod.1 h6, ?_, ?_⟩⟩
  · obtain ⟨d, rfl⟩ := Nat.exists_eq_add_of_lt ha
    exact h7 (d + 1) (by omega) (by omega) (Coprime_add_mod.2 (by rw [← add_assoc]; exact hc))
  · rw [Nat.mod_add_mod]
  · have e1 : kOf (p % 30 * (q % w.modulo)) = kOf (p * q) := kOf_congr (mul_mod30 hw p q).symm
    have e2 : kOf (p % 30 * (q % w.modulo + (w.wheel.get wi).nextMultipleFactor)) =
        kOf (p * (q + (w.wheel.get wi).nextMultipleFactor)) := by
      apply kOf_congr
      rw [mul_mod30 hw p (q + _), Nat.mul_mod, Nat.mul_mod (p % 30) ((q + _) % w.modulo),
        Nat.mod_mod_of_dvd _ (Nat.dvd_of_mod_eq_zero hw.mod30), Nat.add_mod, Nat.add_mod q,
        Nat.mod_mod_of_dvd _ (Nat.dvd_of_mod_eq_zero hw.mod30)]
    rw [e1, e2] at h8
    have h10 := h.hpos
    have h11 : p * (q + (w.wheel.get wi).nextMultipleFactor) =
        p * q + (30 * ((w.wheel.get wi).nextMultipleFactor * (p / 30)) +
          p % 30 * (w.wheel.get wi).nextMultipleFactor) := by
      conv_lhs => rw [Nat.mul_add]
      congr 1
      conv_lhs => rw [← Nat.div_add_mod p 30]
      ring
    have : ∀ a b : ℕ, L + 30 * (idx + (a + b)) = L + 30 * idx + 30 * a + 30 * b := fun a b => by ring
    rw [this]
    omega

theorem At.rebase {w : WheelT} {L p q idx wi : ℕ} (h : At w L p q idx wi) {n : ℕ} (hn : n ≤ idx) :
    At w (L + 30 * n) p q (idx - n) wi := ⟨h.hq, h.hwi, by have := h.hpos; omega⟩

theorem At.rebase' {w : WheelT} {L p q idx wi n : ℕ} (h : At w (L + 30 * n) p q idx wi) :
    At w L p q (n + idx) wi := ⟨h.hq, h.hwi, by have := h.hpos; omega⟩

end Psv
end PS
