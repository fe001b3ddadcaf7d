import Verif.Proof.PsvSmall
import Mathlib.Data.Nat.Bitwise

/-!
# Sieving primes as they are stored, and their insertion (Bucket.hpp, Wheel.hpp)
-/

namespace PS
namespace Psv

/-! ## Packing -/

theorem make_idx {mi wi : ℕ} (h1 : mi < 2 ^ 23) (h2 : wi < 2 ^ 9) :
    (mi ||| (wi <<< 23)) % 2 ^ 32 = mi + 2 ^ 23 * wi := by
  have e : mi ||| (wi <<< 23) = wi <<< 23 + mi := by
    rw [Nat.lor_comm]
    exact (Nat.shiftLeft_add_eq_or_of_lt h1 wi).symm
  rw [e, Nat.shiftLeft_eq]
  omega

theorem make_decode {sp mi wi : ℕ} (h1 : mi < 2 ^ 23) (h2 : wi < 2 ^ 9) (h3 : sp < 2 ^ 32) :
    (SievingPrime.make sp mi wi).sievingPrime = sp ∧ (SievingPrime.make sp mi wi).multipleIndex = mi ∧
      (SievingPrime.make sp mi wi).wheelIndex = wi := by
  unfold SievingPrime.make SievingPrime.multipleIndex SievingPrime.wheelIndex
  dsimp only
  rw [make_idx h1 h2, Nat.and_two_pow_sub_one_eq_mod, Nat.shiftRight_eq_div_pow]
  refine ⟨Nat.mod_eq_of_lt h3, ?_, ?_⟩ <;> omega

theorem upd_decode {s : SievingPrime} {mi wi : ℕ} (h1 : mi < 2 ^ 23) (h2 : wi < 2 ^ 9) :
    (s.upd mi wi).sievingPrime = s.sievingPrime ∧ (s.upd mi wi).multipleIndex = mi ∧ (s.upd mi wi).wheelIndex = wi := by
  unfold SievingPrime.upd SievingPrime.multipleIndex SievingPrime.wheelIndex
  dsimp only
  rw [make_idx h1 h2, Nat.and_two_pow_sub_one_eq_mod, Nat.shiftRight_eq_div_pow]
  refine ⟨rfl, ?_, ?_⟩ <;> omega

theorem mi_lt (s : SievingPrime) : s.multipleIndex < 2 ^ 23 := by
  unfold SievingPrime.multipleIndex
  rw [Nat.and_two_pow_sub_one_eq_mod]
  exact Nat.mod_lt _ (by norm_num)

/-! ## The prime of an entry -/

/-- The residue of the primes of class `o`. -/
def resid (o : ℕ) : ℕ := [7, 11, 13, 17, 19, 23, 29, 1].getD o 0

theorem resid_offset : ∀ r < 30, r.Coprime 30 → resid (wheelOffsets.get r) = r := by decide +kernel

/-- The prime stored in an entry. -/
def primeOf (w : WheelT) (s : SievingPrime) : ℕ := 30 * s.sievingPrime + resid (s.wheelIndex / w.size)

theorem At.class {w : WheelT} (hw : w.Good) {L p q idx wi : ℕ} (h : At w L p q idx wi) :
    wi / w.size = wheelOffsets.get (p % 30) := by
  have h1 := (hw.init (q % w.modulo) (Nat.mod_lt _ hw.pos)).2.2.2.1
  rw [h.hwi, Nat.mul_add_div (by omega), Nat.div_eq_of_lt h1, add_zero]

theorem At.primeOf {w : WheelT} (hw : w.Good) {L p q idx wi : ℕ} {s : SievingPrime} (hp : p.Coprime 30)
    (h : At w L p q idx wi) (h1 : s.sievingPrime = p / 30) (h2 : s.wheelIndex = wi) : Psv.primeOf w s = p := by
  unfold Psv.primeOf
  rw [h2, h.class hw, resid_offset _ (Nat.mod_lt _ (by norm_num)) (coprime30_mod.2 hp), h1]
  omega

/-- All smaller multiples of `p` lie below the base `L`. -/
def Ready (m L p q : ℕ) : Prop := ∀ c, p ≤ c → c < q → c.Coprime m → p * c < L + 7

/-- The prime `p` is at `p * q` in an array with base `L`. -/
structure State (w : WheelT) (L p q idx wi : ℕ) : Prop where
  cop : p.Coprime w.modulo
  gt : 1 < p
  le : p ≤ q
  pos : At w L p q idx wi
  ready : Ready w.modulo L p q

theorem State.cop30 {w : WheelT} (hw : w.Good) {L p q idx wi : ℕ} (h : State w L p q idx wi) : p.Coprime 30 :=
  Nat.Coprime.coprime_dvd_right (Nat.dvd_of_mod_eq_zero hw.mod30) h.cop

/-- The entry `s` is valid for an array with base `L`. -/
def Entry (w : WheelT) (L : ℕ) (s : SievingPrime) : Prop :=
  ∃ q, State w L (primeOf w s) q s.multipleIndex s.wheelIndex

/-- From `L + 7` on, `p` has no multiple up to `stop` that would have to be crossed off. -/
def Dead (m L stop p : ℕ) : Prop := ∀ c, p ≤ c → c.Coprime m → L + 7 ≤ p * c → stop < p * c

theorem Dead.mono {m L L' stop p : ℕ} (h : Dead m L stop p) (hL : L ≤ L') : Dead m L' stop p :=
  fun c h1 h2 h3 => h c h1 h2 (by omega)

theorem primeOf_div (w : WheelT) (s : SievingPrime) : primeOf w s / 30 = s.sievingPrime := by
  have : ∀ o, resid o < 30 := by
    intro o
    unfold resid
    rcases lt_or_ge o 8 with h | h
    · revert h
      revert o
      decide
    · rw [List.getD_eq_default _ _ (by simpa using h)]
      norm_num
  unfold primeOf
  have := this (s.wheelIndex / w.size)
  omega

/-! ## Wheel.hpp: addSievingPrime -/

theorem Wheel_add_ok {w : WheelT} (hw : w.Good) {stop p L : ℕ} (hp : p.Coprime w.modulo) (hp1 : 1 < p)
    (hp2 : p < 2 ^ 32) (hL : L % 30 = 0) (hL2 : L < 2 ^ 64) (hs : stop < 2 ^ 64) :
    Ok (w.add stop p L) (fun r => match r with
      | none => Dead w.modulo L stop p
      | some (mi, wi) => ∃ q, State w L p q mi wi ∧ p * q ≤ stop ∧ (q = p ∨ p * q ≤ L + 6 + 10 * p)) := by
  have hp30 : p.Coprime 30 := Nat.Coprime.coprime_dvd_right (Nat.dvd_of_mod_eq_zero hw.mod30) hp
  unfold WheelT.add
  have e1 : u64 (L + 6) = L + 6 := Nat.mod_eq_of_lt (by omega)
  simp only [e1]
  rw [cdiv_ok (by omega)]
  simp only [ok_bind]
  obtain ⟨Q, hQ⟩ : ∃ Q, Q = max p ((L + 6) / p + 1) := ⟨_, rfl⟩
  rw [← hQ]
  have hdm := Nat.div_add_mod (L + 6) p
  have hml := Nat.mod_lt (L + 6) (show 0 < p by omega)
  have hgt : p * Q ≥ L + 7 := by
    calc _ ≤ p * ((L + 6) / p + 1) := by rw [Nat.mul_add, Nat.mul_one]; omega
      _ ≤ _ := Nat.mul_le_mul_left _ (by omega)
  have hpQ : p ≤ Q := by omega
  have hle : Q = p ∨ p * Q ≤ L + 6 + p := by
    rcases le_total p ((L + 6) / p + 1) with h | h
    · right
      rw [hQ, max_eq_right h, Nat.mul_add, Nat.mul_one]
      omega
    · left
      omega
  have hsq : p * p < 2 ^ 64 := by
    calc p * p < 2 ^ 32 * 2 ^ 32 := Nat.mul_lt_mul'' hp2 hp2
      _ = _ := by norm_num
  have hlow : ∀ c, p ≤ c → c < Q → p * c < L + 7 := by
    intro c h1 h2
    have h3 : c ≤ (L + 6) / p := by omega
    have : p * c ≤ p * ((L + 6) / p) := Nat.mul_le_mul_left _ h3
    omega
  obtain ⟨i1, i2, i3, i4, i5⟩ := hw.init (Q % w.modulo) (Nat.mod_lt _ hw.pos)
  rw [Coprime_add_mod] at i1
  have hno : ∀ c, Q ≤ c → c < Q + (w.init.get (Q % w.modulo)).1 → ¬ c.Coprime w.modulo := by
    intro c h1 h2 h3
    obtain ⟨d, rfl⟩ := Nat.exists_eq_add_of_le h1
    exact i2 d (by omega) (Coprime_add_mod.2 h3)
  have hready : Ready w.modulo L p (Q + (w.init.get (Q % w.modulo)).1) := by
    intro c h1 h2 h3
    rcases lt_or_ge c Q with h4 | h4
    · exact hlow c h1 h4
    · exact absurd h3 (hno c h4 h2)
  have hdead : stop < p * (Q + (w.init.get (Q % w.modulo)).1) → Dead w.modulo L stop p := by
    intro h c h1 h2 h3
    have : Q + (w.init.get (Q % w.modulo)).1 ≤ c := by
      by_contra h4
      have := hready c h1 (by omega) h2
      omega
    exact lt_of_lt_of_le h (Nat.mul_le_mul_left _ this)
  have hwrap : p * Q < 2 ^ 64 ∨ (2 ^ 64 ≤ p * Q ∧ p * Q < 2 ^ 64 + 2 ^ 32) := by
    rcases hle with h | h
    · rw [h]
      omega
    · omega
  rcases hwrap with hlt | hge
  · have e2 : u64 (p * Q) = p * Q := Nat.mod_eq_of_lt hlt
    rw [e2]
    refine Ok.ite (fun hc => ?_) (fun hc => ?_)
    · refine Ok.pure (hdead ?_)
      have : p * Q ≤ p * (Q + (w.init.get (Q % w.modulo)).1) := Nat.mul_le_mul_left _ (by omega)
      omega
    · rw [Vec.rd_ok (by rw [hw.initSize]; exact Nat.mod_lt _ hw.pos)]
      simp only [ok_bind]
      have hb : p * (w.init.get (Q % w.modulo)).1 ≤ p * 9 := Nat.mul_le_mul_left _ (by omega)
      have e3 : u64 (p * (w.init.get (Q % w.modulo)).1) = p * (w.init.get (Q % w.modulo)).1 :=
        Nat.mod_eq_of_lt (by omega)
      rw [e3]
      have ed : p * (Q + (w.init.get (Q % w.modulo)).1) = p * Q + p * (w.init.get (Q % w.modulo)).1 := by ring
      refine Ok.ite (fun hc2 => ?_) (fun hc2 => ?_)
      · exact Ok.pure (hdead (by omega))
      · have e4 : u64 (p * (w.init.get (Q % w.modulo)).1 + (p * Q - (L + 6))) =
            p * (Q + (w.init.get (Q % w.modulo)).1) - (L + 6) := by
          unfold u64
          rw [Nat.mod_eq_of_lt (by omega)]
          omega
        rw [e4, Vec.rd_ok (by rw [wheelOffsets_size]; exact Nat.mod_lt _ (by norm_num))]
        simp only [ok_bind]
        refine Ok.pure ?_
        have hcop : (p * (Q + (w.init.get (Q % w.modulo)).1)).Coprime 30 :=
          hp30.mul_left (Nat.Coprime.coprime_dvd_right (Nat.dvd_of_mod_eq_zero hw.mod30) i1)
        have hk := bv_kOf hcop
        have hr := bv_range (kOf_lt (p * (Q + (w.init.get (Q % w.modulo)).1)))
        refine ⟨Q + (w.init.get (Q % w.modulo)).1, ⟨hp, hp1, by omega, ⟨i1, ?_, ?_⟩, hready⟩, by omega, ?_⟩
        · rw [Nat.mod_add_mod] at i3
          rw [i3]
        · omega
        · rcases hle with h | h
          · left
            have h0 : (w.init.get (Q % w.modulo)).1 = 0 := by
              by_contra hne
              exact hno Q (le_refl _) (by omega) (by rw [h]; exact hp)
            rw [h0, h, add_zero]
          · right
            omega
  · have e2 : u64 (p * Q) < L + 6 := by
      unfold u64
      have h2 : L + 6 + p ≥ 2 ^ 64 := by
        rcases hle with h | h
        · rw [h] at hge
          omega
        · omega
      rw [Nat.mod_eq_sub_mod hge.1, Nat.mod_eq_of_lt (by omega)]
      omega
    rw [if_pos (.inr e2)]
    refine Ok.pure (hdead ?_)
    have : p * Q ≤ p * (Q + (w.init.get (Q % w.modulo)).1) := Nat.mul_le_mul_left _ (by omega)
    omega

/-! ## Crossing off, seen from outside -/

/-- `n` is one of the numbers that the primes in `D` cross off. -/
def Struck (m : ℕ) (D : ℕ → Prop) (n : ℕ) : Prop := ∃ p, D p ∧ ∃ c, p ≤ c ∧ c.Coprime m ∧ n = p * c

/-- Crossing off with the primes `D` in the bytes `lo ≤ i < hi` turned `S` into `S'`. -/
structure Crossed (m L lo hi stop : ℕ) (D : ℕ → Prop) (S S' : Vec Byte) : Prop where
  size : S'.size = S.size
  sub : ∀ i < S.size, ∀ k < 8, bitAt S' i k = true → bitAt S i k = true
  sound : ∀ i < S.size, ∀ k < 8, bitAt S i k = true → bitAt S' i k = false → Struck m D (L + 30 * i + bv k)
  complete : ∀ i < S.size, ∀ k < 8, lo ≤ i → i < hi → L + 30 * i + bv k ≤ stop →
    Struck m D (L + 30 * i + bv k) → bitAt S' i k = false

theorem Crossed.refl {m L lo stop : ℕ} {D : ℕ → Prop} {S : Vec Byte} : Crossed m L lo lo stop D S S where
  size := rfl
  sub := fun _ _ _ _ h => h
  sound := fun _ _ _ _ h h' => by rw [h] at h'; cases h'
  complete := fun _ _ _ _ h h' => by omega

theorem Crossed.trans {m L lo mid hi stop : ℕ} {D : ℕ → Prop} {S S' S'' : Vec Byte}
    (h : Crossed m L lo mid stop D S S') (h' : Crossed m L mid hi stop D S' S'') : Crossed m L lo hi stop D S S'' where
  size := h'.size.trans h.size
  sub := fun i hi k hk hb => h.sub i hi k hk (h'.sub i (h.size ▸ hi) k hk hb)
  sound := fun i hi k hk h1 h2 => by
    cases hb : bitAt S' i k
    · exact h.sound i hi k hk h1 hb
    · exact h'.sound i (h.size ▸ hi) k hk hb h2
  complete := fun i hi k hk h1 h2 h3 h4 => by
    rcases lt_or_ge i mid with h5 | h5
    · have := h.complete i hi k hk h1 h5 h3 h4
      by_contra hc
      have := h'.sub i (h.size ▸ hi) k hk (by simpa using hc)
      simp_all
    · exact h'.complete i (h.size ▸ hi) k hk h5 h2 h3 h4

end Psv
end PS
