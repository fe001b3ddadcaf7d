import Verif.Model.Res
import Verif.Proof.PhiSum
import Verif.Props.Int256

namespace PS

/-- How a result type represents integers: modulo `2 * half`. -/
class LawfulRes (R : Type) [Res R] where
  /-- `r` is congruent to `z` -/
  Rep : R → ℤ → Prop
  /-- arguments of `phi_sum` for which the implementation is right -/
  PhiOk : ℕ → ℕ → Prop
  /-- integers representable exactly -/
  Fits : ℤ → Prop
  rep_ofInt : ∀ z, -2 ^ 127 ≤ z → z < 2 ^ 127 → Rep (Res.ofInt z) z
  rep_add : ∀ a b x y, Rep a x → Rep b y → Rep (Res.add a b) (x + y)
  rep_sub : ∀ a b x y, Rep a x → Rep b y → Rep (Res.sub a b) (x - y)
  rep_mul : ∀ a b x y, Rep a x → Rep b y → -2 ^ 127 ≤ x → x < 2 ^ 255 → -2 ^ 127 ≤ y → y < 2 ^ 255 →
    Rep (Res.mul a b) (x * y)
  rep_phi : ∀ x c, PhiOk x c → Ok (Res.phiSumR (R := R) x c) (fun r => Rep r (phiSum x c))
  phiOk_div : ∀ x c m, 1 ≤ m → Rough c m → PhiOk x c → PhiOk (x / m) c
  phiOk_anti : ∀ x c c', c' ≤ c → PhiOk x c → PhiOk x c'
  phiOk_lt : ∀ x c, PhiOk x c → x < 2 ^ 127
  rep_val : ∀ r z, Rep r z → Fits z → (Res.toI256 r).val = z

open LawfulRes

instance : LawfulRes W128 where
  Rep r z := (r.toInt - z) % 2 ^ 128 = 0
  PhiOk x c := x < 2 ^ 63 ∧ prm c < 2 ^ 31
  Fits z := -2 ^ 127 ≤ z ∧ z < 2 ^ 127
  rep_ofInt z h1 h2 := by
    show ((BitVec.ofInt 128 z).toInt - z) % 2 ^ 128 = 0
    rw [BitVec.toInt_ofInt, Int.bmod_def]; split <;> omega
  rep_add a b x y h1 h2 := by
    show ((a + b).toInt - (x + y)) % 2 ^ 128 = 0
    rw [BitVec.toInt_add, Int.bmod_def]; split <;> omega
  rep_sub a b x y h1 h2 := by
    show ((a - b).toInt - (x - y)) % 2 ^ 128 = 0
    rw [BitVec.toInt_sub, Int.bmod_def]; split <;> omega
  rep_mul a b x y h1 h2 _ _ _ _ := by
    show ((a * b).toInt - (x * y)) % 2 ^ 128 = 0
    obtain ⟨k, hk⟩ := Int.dvd_of_emod_eq_zero h1
    obtain ⟨l, hl⟩ := Int.dvd_of_emod_eq_zero h2
    have e : a.toInt * b.toInt = x * y + 2 ^ 128 * (k * b.toInt + x * l) := by
      have : a.toInt = x + 2 ^ 128 * k := by omega
      have h3 : b.toInt = y + 2 ^ 128 * l := by omega
      rw [this, h3]; ring
    rw [BitVec.toInt_mul, Int.bmod_def, e]
    generalize x * y = w
    generalize k * b.toInt + x * l = v
    split <;> omega
  rep_phi x c h := by
    show Ok (do let r ← phiSum64 x c; pure (BitVec.ofInt 128 r)) _
    rw [phiSum64_ok x c h.1 h.2]
    refine Ok.ok ?_
    have := phiSum_le x c
    rw [BitVec.toInt_ofInt, Int.bmod_def]; split <;> omega
  phiOk_div x c m hm _ h := ⟨lt_of_le_of_lt (Nat.div_le_self _ _) h.1, h.2⟩
  phiOk_anti x c c' hc h := ⟨h.1, lt_of_le_of_lt (prm_le_prm hc) h.2⟩
  phiOk_lt x c h := by omega
  rep_val r z h hf := by
    show (I256.ofInt r.toInt).val = z
    have e : r.toInt = z := by
      have h1 := r.le_two_mul_toInt
      have h2 := r.two_mul_toInt_lt
      omega
    rw [e, I256.val_ofInt _ hf.1 (by omega)]

theorem rep256_iff {r : I256} {z : ℤ} : r.val = I256.wrap z ↔ r.val % 2 ^ 256 = z % 2 ^ 256 := by
  constructor
  · intro h; rw [h, I256.wrap_emod]
  · intro h
    have := I256.wrap_congr h
    rwa [I256.wrap_of_inRange (I256.val_range r)] at this

instance : LawfulRes I256 where
  Rep r z := r.val = I256.wrap z
  PhiOk x c := x < 2 ^ 127 ∧ prm c < 2 ^ 31 ∧ NoWindow x c
  Fits z := I256.InRange z
  rep_ofInt z h1 h2 := by
    show (I256.ofInt z).val = _
    rw [I256.val_ofInt z h1 (by omega), I256.wrap_of_inRange ⟨by omega, by omega⟩]
  rep_add a b x y h1 h2 := by
    show (I256.add a b).val = _
    rw [rep256_iff] at *
    rw [I256.C33_add, I256.wrap_emod]
    omega
  rep_sub a b x y h1 h2 := by
    show (I256.sub a b).val = _
    rw [rep256_iff] at *
    rw [I256.C33_sub, I256.wrap_emod]
    omega
  rep_mul a b x y h1 h2 hx1 hx2 hy1 hy2 := by
    show (I256.mul a b).val = _
    rw [I256.wrap_of_inRange ⟨by omega, by omega⟩] at h1 h2
    rw [I256.C34_mul_partial a b (by unfold I256.InWindow; omega) (by unfold I256.InWindow; omega), h1, h2]
  rep_phi x c h := by
    refine (phiSumM_ok x c h.1 h.2.1 h.2.2).mono (fun r hr => ?_)
    rw [hr, I256.wrap_of_inRange]
    have h1 := phiSum_le x c
    have h2 : x * (x + 1) ≤ 2 ^ 127 * 2 ^ 127 := Nat.mul_le_mul (by omega) (by omega)
    constructor <;> omega
  phiOk_div x c m hm hr h := ⟨lt_of_le_of_lt (Nat.div_le_self _ _) h.1, h.2.1, h.2.2.div hr⟩
  phiOk_anti x c c' hc h := ⟨h.1, lt_of_le_of_lt (prm_le_prm hc) h.2.1, h.2.2.anti hc⟩
  phiOk_lt x c h := h.1
  rep_val r z h hf := by
    show r.val = z
    rw [h, I256.wrap_of_inRange hf]

end PS
