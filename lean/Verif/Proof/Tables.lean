import Verif.Proof.Generate
import Verif.Model.PhiTiny
import Verif.Proof.Width

namespace PS
open Finset
open scoped Classical
local notation "π" => Nat.primeCounting

/-! ## prime sums -/

theorem primeSum_eq_sum_prm (x : ℕ) : primeSum x = ∑ j ∈ Icc 1 (π x), prm j := by
  induction x with
  | zero => simp [primeSum]
  | succ n ih =>
    rw [primeSum_succ, ih, pi_succ]
    split
    · rename_i hp
      rw [Finset.sum_Icc_succ_top (by omega)]
      congr 1
      rw [← prm_pi hp, pi_succ, if_pos hp]
    · simp

theorem primeSum_le (x : ℕ) : primeSum x * 2 ≤ x * (x + 1) := by
  induction x with
  | zero => simp [primeSum]
  | succ n ih =>
    rw [primeSum_succ]
    split <;> nlinarith

theorem generatePrimeSums_ok {tb max : ℕ} (htb : max * (max + 1) < 2 * 2 ^ tb) :
    Ok (generatePrimeSums tb max) (fun v => v.size = π max + 1 ∧
      ∀ i, i ≤ π max → v.get i = ∑ j ∈ Icc 1 i, prm j) := by
  unfold generatePrimeSums
  obtain ⟨t1, t2, t3⟩ := generatePrimes_table max
  have hmb : max < 2 ^ tb := by
    rcases Nat.eq_zero_or_pos max with h0 | h0
    · subst h0; exact Nat.two_pow_pos tb
    · have : max * 2 ≤ max * (max + 1) := Nat.mul_le_mul_left _ (by omega)
      omega
  rw [generatePrimesT_eq hmb, ok_bind, t1]
  refine (forUp_ok (fun i (v : Vec ℕ) => v.size = π max + 1 ∧ ∀ k, k ≤ π max →
      v.get k = if k < i then ∑ j ∈ Icc 1 k, prm j else prm k) ?_ (by omega) ?_).mono (fun v hv => ?_)
  · refine ⟨t1, fun k hk => ?_⟩
    split
    · have : k = 0 := by omega
      subst this; simpa using t2
    · exact t3 k (by omega) hk
  · intro i v h1 h2 hv
    rw [Vec.rd_ok (by omega)]
    simp only [ok_bind]
    rw [Vec.rd_ok (by omega)]
    simp only [ok_bind]
    have hsum : v.get i + v.get (i - 1) = ∑ j ∈ Icc 1 i, prm j := by
      rw [hv.2 i (by omega), hv.2 (i - 1) (by omega), if_neg (by omega), if_pos (by omega)]
      obtain ⟨m, rfl⟩ : ∃ m, i = m + 1 := ⟨i - 1, by omega⟩
      rw [Finset.sum_Icc_succ_top (by omega), Nat.add_sub_cancel, Nat.add_comm]
    have hle : ∑ j ∈ Icc 1 i, prm j ≤ primeSum max := by
      rw [primeSum_eq_sum_prm]
      exact Finset.sum_le_sum_of_subset (Finset.Icc_subset_Icc le_rfl (by omega))
    have hle2 := primeSum_le max
    rw [fit_ok (by omega), ok_bind]
    refine (wr_map hv.1 h2 _).mono (fun w hw => ⟨hw.1, fun k hk => ?_⟩)
    rw [hw.2]
    by_cases hk2 : k = i
    · subst hk2
      rw [if_pos rfl, if_pos (by omega), hsum]
    · rw [if_neg hk2, hv.2 k hk]
      by_cases hk3 : k < i
      · rw [if_pos hk3, if_pos (by omega)]
      · rw [if_neg hk3, if_neg (by omega)]
  · refine ⟨hv.1, fun i hi => ?_⟩
    rw [hv.2 i hi, if_pos (by omega)]

/-- A table of prime sums for `max`. -/
def SumTable (v : Vec ℕ) (max : ℕ) : Prop :=
  v.size = π max + 1 ∧ ∀ i, i ≤ π max → v.get i = ∑ j ∈ Icc 1 i, prm j

theorem SumTable.rd_pi {v : Vec ℕ} {max n : ℕ} (h : SumTable v max) (hn : n ≤ max) :
    v.rd (π n) = .ok (primeSum n) := by
  have := pi_mono hn
  rw [Vec.rd_ok (by rw [h.1]; omega), h.2 _ this, ← primeSum_eq_sum_prm]

theorem SumTable.rd_le {v : Vec ℕ} {max i : ℕ} (h : SumTable v max) (hi : i ≤ π max) :
    v.rd i = .ok (∑ j ∈ Icc 1 i, prm j) := by
  rw [Vec.rd_ok (by rw [h.1]; omega), h.2 _ hi]

/-! ## PiTable -/

theorem bitSum_eq_count (n x : ℕ) : bitSum n x = Nat.count (fun i => x.testBit i = true) n := by
  unfold bitSum
  induction n with
  | zero => simp
  | succ n ih =>
    rw [List.range_succ, Nat.count_succ, ← ih]
    simp only [List.map_append, List.sum_append, List.map_cons, List.map_nil, List.sum_cons, List.sum_nil]
    cases x.testBit n <;> rfl

theorem popcnt_count (x : BitVec 64) : (popcnt64 x).toNat = Nat.count (fun i => x.getLsbD i = true) 64 := by
  rw [popcnt64_ok, bitSum_eq_count]; rfl

theorem count_congr {p q : ℕ → Prop} [DecidablePred p] [DecidablePred q] {n : ℕ}
    (h : ∀ i, i < n → (p i ↔ q i)) : Nat.count p n = Nat.count q n := by
  induction n with
  | zero => simp
  | succ n ih =>
    rw [Nat.count_succ, Nat.count_succ, ih (fun i hi => h i (by omega))]
    simp only [h n (by omega)]

theorem count_and_lt {p : ℕ → Prop} [DecidablePred p] {m n : ℕ} (h : m ≤ n) :
    Nat.count (fun i => p i ∧ i < m) n = Nat.count p m := by
  induction n, h using Nat.le_induction with
  | base => exact count_congr (fun i hi => by simp [hi])
  | succ n hn ih =>
    rw [Nat.count_succ, ih, if_neg (by omega)]; simp

theorem pi_eq_count (n : ℕ) : π n = Nat.count Nat.Prime (n + 1) := rfl

/-- The state of a complete `PiTable`. -/
def PiTable.Valid (t : PiTable) : Prop :=
  t.pi.size = t.max / 64 + 1 ∧ ∀ w, w ≤ t.max / 64 →
    (∀ i, i < 64 → ((t.pi.get w).bits.getLsbD i = true ↔ (64 * w + i).Prime ∧ 64 * w + i ≤ t.max)) ∧
    (t.pi.get w).primeCount = Nat.count Nat.Prime (64 * w)

theorem PiTable.build_ok (max : ℕ) : Ok (PiTable.build max) (fun t => t.max = max ∧ t.Valid) := by
  unfold PiTable.build
  refine Ok.bind (P := fun v : Vec PiData => v.size = max / 64 + 1 ∧ ∀ w, w ≤ max / 64 →
    ∀ i, i < 64 → ((v.get w).bits.getLsbD i = true ↔ (64 * w + i).Prime ∧ 64 * w + i ≤ max)) ?_
    (fun v hv => ?_)
  · refine forPrimes_ok (fun k (v : Vec PiData) => v.size = max / 64 + 1 ∧ ∀ w, w ≤ max / 64 →
      ∀ i, i < 64 → ((v.get w).bits.getLsbD i = true ↔ (64 * w + i).Prime ∧ 64 * w + i ≤ k))
      ⟨by simp, fun w hw i hi => ?_⟩ (by omega) (fun k v _ _ hnp hv => ⟨hv.1, fun w hw i hi => ?_⟩)
      (fun p v hp hp0 hpm hv => ?_)
    · rw [Vec.get_mk' _ _ _ (by omega)]
      simp only [BitVec.getLsbD_zero, Bool.false_eq_true, false_iff]
      rintro ⟨h1, h2⟩
      have := h1.two_le; omega
    · rw [hv.2 w hw i hi]
      constructor
      · rintro ⟨a, b⟩; exact ⟨a, by omega⟩
      · rintro ⟨a, b⟩
        refine ⟨a, ?_⟩
        rcases Nat.lt_or_ge k (64 * w + i) with h | h
        · have : 64 * w + i = k + 1 := by omega
          rw [this] at a; exact absurd a hnp
        · exact h
    · rw [Vec.rd_ok (by rw [hv.1]; omega)]
      simp only [ok_bind]
      refine (wr_map hv.1 (by omega) _).mono (fun v' hv' => ⟨hv'.1, fun w hw i hi => ?_⟩)
      rw [hv'.2]
      by_cases hc : w = p / 64
      · rw [if_pos hc]
        subst hc
        simp only [BitVec.getLsbD_or, Bool.or_eq_true, hv.2 _ hw i hi, BitVec.getLsbD_shiftLeft,
          BitVec.getLsbD_one]
        simp only [Bool.and_eq_true, decide_eq_true_eq, Bool.not_eq_true', decide_eq_false_iff_not]
        constructor
        · rintro (⟨a, b⟩ | ⟨⟨_, a⟩, _, b⟩)
          · exact ⟨a, by omega⟩
          · have : 64 * (p / 64) + i = p := by omega
            rw [this]; exact ⟨hp, le_rfl⟩
        · rintro ⟨a, b⟩
          rcases Nat.lt_or_ge (64 * (p / 64) + i) p with h | h
          · exact Or.inl ⟨a, by omega⟩
          · right
            refine ⟨⟨hi, by omega⟩, by omega, by omega⟩
      · rw [if_neg hc, hv.2 w hw i hi]
        constructor
        · rintro ⟨a, b⟩; exact ⟨a, by omega⟩
        · rintro ⟨a, b⟩
          refine ⟨a, ?_⟩
          by_contra h
          have : 64 * w + i = p := by omega
          omega
  · rw [hv.1]
    refine Ok.bind (P := fun r : Vec PiData × ℕ => PiTable.Valid ⟨r.1, max⟩) ?_
      (fun r hr => Ok.pure ⟨rfl, hr⟩)
    refine (forUp_ok (fun i (r : Vec PiData × ℕ) => r.1.size = max / 64 + 1 ∧
      (∀ w, (r.1.get w).bits = (v.get w).bits) ∧
      (∀ w, w < i → (r.1.get w).primeCount = Nat.count (fun n => n.Prime ∧ n ≤ max) (64 * w)) ∧
      r.2 = Nat.count (fun n => n.Prime ∧ n ≤ max) (64 * i)) ⟨hv.1, fun _ => rfl, by omega, by simp⟩
      (by omega) ?_).mono (fun r hr => ?_)
    · rintro i ⟨u, pix⟩ _ h2 ⟨e1, e2, e3, e4⟩
      simp only at e1 e2 e3 e4 ⊢
      rw [Vec.rd_ok (by omega)]
      simp only [ok_bind]
      refine Ok.bind (wr_map e1 h2 _) (fun u' hu' => Ok.pure ⟨hu'.1, fun w => ?_, fun w hw => ?_, ?_⟩)
      · rw [hu'.2]
        split
        · rename_i h; rw [h]; exact e2 i
        · exact e2 w
      · rw [hu'.2]
        split
        · rename_i h; rw [h]; exact e4
        · exact e3 w (by omega)
      · show pix + _ = _
        rw [show 64 * (i + 1) = 64 * i + 64 by ring, Nat.count_add, e4, popcnt_count, e2 i]
        congr 1
        exact count_congr (fun j hj => hv.2 i (by omega) j hj)
    · obtain ⟨e1, e2, e3, e4⟩ := hr
      refine ⟨e1, fun w hw => ⟨fun i hi => ?_, ?_⟩⟩
      · show (r.1.get w).bits.getLsbD i = true ↔ _
        rw [e2]; exact hv.2 w hw i hi
      · show (r.1.get w).primeCount = _
        rw [e3 w (by simp only at hw; omega)]
        apply count_congr
        intro n hn
        simp only at hw
        simp only [and_iff_left_iff_imp]
        intro _; omega

theorem PiTable.at_ok {t : PiTable} (ht : t.Valid) {n : ℕ} (hn : n ≤ t.max) : t.at n = .ok (π n) := by
  unfold PiTable.at
  obtain ⟨h1, h2⟩ := ht
  obtain ⟨h3, h4⟩ := h2 (n / 64) (by omega)
  rw [Vec.rd_ok (by omega)]
  simp only [ok_bind, pure_eq_ok]
  congr 1
  rw [h4, popcnt_count, pi_eq_count, show n + 1 = 64 * (n / 64) + (n % 64 + 1) by omega, Nat.count_add]
  congr 1
  rw [← count_and_lt (p := fun k => (64 * (n / 64) + k).Prime) (m := n % 64 + 1) (n := 64) (by omega)]
  apply count_congr
  intro i hi
  rw [BitVec.getLsbD_and, Bool.and_eq_true, h3 i hi, BitVec.getLsbD_ushiftRight]
  have hall : (0xffffffffffffffff#64).getLsbD (63 - n % 64 + i) = true ↔ i < n % 64 + 1 := by
    rw [show (0xffffffffffffffff#64) = BitVec.allOnes 64 from rfl, BitVec.getLsbD_allOnes,
      decide_eq_true_eq]
    omega
  rw [hall]
  constructor
  · rintro ⟨⟨a, _⟩, b⟩; exact ⟨a, b⟩
  · rintro ⟨a, b⟩; exact ⟨⟨a, by omega⟩, b⟩

/-! ## PhiTiny -/

/-- Product of the first `a` primes. -/
noncomputable def primorialP (a : ℕ) : ℕ := ∏ i ∈ Icc 1 a, prm i
/-- Product of the first `a` primes minus one. -/
noncomputable def totientP (a : ℕ) : ℕ := ∏ i ∈ Icc 1 a, (prm i - 1)

theorem phi_period (a q r : ℕ) : phi (q * primorialP a + r) a = q * totientP a + phi r a := by
  induction a generalizing q r with
  | zero => simp [primorialP, totientP, phi_zero]
  | succ a ih =>
    have e1 := phi_succ (q * primorialP (a + 1) + r) a
    have e2 := phi_succ r a
    have hp := prm_pos (a + 1)
    have p1 : primorialP (a + 1) = primorialP a * prm (a + 1) := by
      unfold primorialP; rw [Finset.prod_Icc_succ_top (by omega)]
    have t1 : totientP (a + 1) = totientP a * (prm (a + 1) - 1) := by
      unfold totientP; rw [Finset.prod_Icc_succ_top (by omega)]
    have d1 : (q * primorialP (a + 1) + r) / prm (a + 1) = q * primorialP a + r / prm (a + 1) := by
      rw [p1, show q * (primorialP a * prm (a + 1)) + r = r + prm (a + 1) * (q * primorialP a) by ring,
        Nat.add_mul_div_left _ _ hp]
      ring
    have d2 : q * primorialP (a + 1) + r = (q * prm (a + 1)) * primorialP a + r := by rw [p1]; ring
    rw [d1, ih] at e1
    rw [d2] at e1 ⊢
    rw [ih] at e1
    have t2 : q * totientP (a + 1) + q * totientP a = q * prm (a + 1) * totientP a := by
      rw [t1]
      obtain ⟨m, hm⟩ : ∃ m, prm (a + 1) = m + 1 := ⟨prm (a + 1) - 1, by omega⟩
      rw [hm, Nat.add_sub_cancel]; ring
    omega

theorem phi_le_self (x a : ℕ) : phi x a ≤ x := by
  have := phi_anti (x := x) (a := 0) (b := a) (by omega)
  rwa [phi_zero] at this

namespace PhiTiny

theorem tab_consts (a : ℕ) (h : a ≤ 6) : primeProducts.rd a = .ok (primorialP a) ∧
    totients.rd a = .ok (totientP a) ∧ (1 ≤ a → primes.rd a = .ok (prm a)) := by
  have e : ∀ n (f : ℕ → ℕ), ∏ i ∈ Icc 1 (n + 1), f i = (∏ i ∈ Icc 1 n, f i) * f (n + 1) :=
    fun n f => Finset.prod_Icc_succ_top (by omega) f
  have P0 : primorialP 0 = 1 := by simp [primorialP]
  have P1 : primorialP 1 = 2 := by unfold primorialP at *; rw [e, P0, prm_one]
  have P2 : primorialP 2 = 6 := by unfold primorialP at *; rw [e, P1, prm_2]
  have P3 : primorialP 3 = 30 := by unfold primorialP at *; rw [e, P2, prm_3]
  have P4 : primorialP 4 = 210 := by unfold primorialP at *; rw [e, P3, prm_4]
  have P5 : primorialP 5 = 2310 := by unfold primorialP at *; rw [e, P4, prm_5]
  have P6 : primorialP 6 = 30030 := by unfold primorialP at *; rw [e, P5, prm_6]
  have T0 : totientP 0 = 1 := by simp [totientP]
  have T1 : totientP 1 = 1 := by unfold totientP at *; rw [e, T0, prm_one]
  have T2 : totientP 2 = 2 := by unfold totientP at *; rw [e, T1, prm_2]
  have T3 : totientP 3 = 8 := by unfold totientP at *; rw [e, T2, prm_3]
  have T4 : totientP 4 = 48 := by unfold totientP at *; rw [e, T3, prm_4]
  have T5 : totientP 5 = 480 := by unfold totientP at *; rw [e, T4, prm_5]
  have T6 : totientP 6 = 5760 := by unfold totientP at *; rw [e, T5, prm_6]
  interval_cases a
  · rw [P0, T0]; exact ⟨by decide, by decide, by omega⟩
  · rw [P1, T1, prm_one]; exact ⟨by decide, by decide, by decide⟩
  · rw [P2, T2, prm_2]; exact ⟨by decide, by decide, by decide⟩
  · rw [P3, T3, prm_3]; exact ⟨by decide, by decide, by decide⟩
  · rw [P4, T4, prm_4]; exact ⟨by decide, by decide, by decide⟩
  · rw [P5, T5, prm_5]; exact ⟨by decide, by decide, by decide⟩
  · rw [P6, T6, prm_6]; exact ⟨by decide, by decide, by decide⟩

theorem primorial_pos (a : ℕ) : 0 < primorialP a := Finset.prod_pos (fun i _ => prm_pos i)

theorem primorial_le (a : ℕ) (h : a ≤ 6) : primorialP a ≤ 30030 := by
  have h6 := (tab_consts 6 le_rfl).1
  have : primorialP 6 = 30030 := by
    have : primeProducts.rd 6 = .ok 30030 := by decide
    rw [this] at h6; exact (Except.ok.inj h6).symm
  rw [← this]
  apply Nat.le_of_dvd (primorial_pos 6)
  exact Finset.prod_dvd_prod_of_subset _ _ _ (Finset.Icc_subset_Icc le_rfl h)

/-- Rows `≤ n` of the table are complete. -/
def Valid (tabs : Vec Tab) (n : ℕ) : Prop :=
  tabs.size = 7 ∧ ∀ a, a ≤ n → (tabs.get a).v.size = primorialP a ∧
    ∀ x, x < primorialP a → (tabs.get a).v.get x = phi x a

theorem phi_split (x a : ℕ) : phi x a = x / primorialP a * totientP a + phi (x % primorialP a) a := by
  rw [← phi_period, Nat.div_add_mod']

theorem phiT_ok {b : ℕ} {tabs : Vec Tab} {n : ℕ} (ht : Valid tabs n) {a : ℕ} (ha : a ≤ n) (hn : n ≤ 6) (x : ℕ)
    (hx : x < 2 ^ b) : phiT b tabs x a = .ok (phi x a : ℤ) := by
  unfold phiT
  obtain ⟨c1, c2, _⟩ := tab_consts a (by omega)
  obtain ⟨h1, h2⟩ := ht.2 a ha
  have hpos := primorial_pos a
  have hm := Nat.mod_lt x hpos
  rw [c1, c2, Vec.rd_ok (by rw [ht.1]; omega)]
  simp only [ok_bind]
  rw [cdiv_ok hpos]
  simp only [ok_bind]
  rw [Vec.rd_ok (by omega)]
  simp only [ok_bind]
  rw [h2 _ hm]
  have hs := phi_split x a
  have hle := phi_le_self x a
  have hz : ((phi x a : ℕ) : ℤ) = ((x / primorialP a : ℕ) : ℤ) * (totientP a : ℤ) +
      (phi (x % primorialP a) a : ℤ) := by exact_mod_cast hs
  have hnn : (0:ℤ) ≤ ((x / primorialP a : ℕ) : ℤ) * (totientP a : ℤ) := by positivity
  have hb : (x : ℤ) < 2 ^ b := by exact_mod_cast hx
  have hb0 : (0 : ℤ) ≤ 2 ^ b := by positivity
  rw [fitI_ok (by omega) (by omega), ok_bind, ← hz, fitI_ok (by omega) (by omega)]

theorem phiU32_ok {tabs : Vec Tab} {n : ℕ} (ht : Valid tabs n) {a : ℕ} (ha : a ≤ n) (hn : n ≤ 6) (x : ℕ)
    (hx : x < 2 ^ 32) : phiU32 tabs x a = .ok (phi x a : ℤ) := by
  unfold phiU32
  obtain ⟨c1, c2, _⟩ := tab_consts a (by omega)
  obtain ⟨h1, h2⟩ := ht.2 a ha
  have hpos := primorial_pos a
  have hm := Nat.mod_lt x hpos
  rw [c1, c2, Vec.rd_ok (by rw [ht.1]; omega)]
  simp only [ok_bind]
  rw [cdiv_ok hpos]
  simp only [ok_bind]
  rw [Vec.rd_ok (by omega)]
  simp only [ok_bind, pure_eq_ok]
  rw [h2 _ hm]
  have hs := phi_split x a
  have hle := phi_le_self x a
  have hz : ((phi x a : ℕ) : ℤ) = ((x / primorialP a : ℕ) : ℤ) * (totientP a : ℤ) +
      (phi (x % primorialP a) a : ℤ) := by exact_mod_cast hs
  have hnn : (0:ℤ) ≤ ((x / primorialP a : ℕ) : ℤ) * (totientP a : ℤ) := by positivity
  rw [Int.emod_eq_of_lt hnn (by omega), Int.emod_eq_of_lt (by omega) (by omega), hz]

theorem build_ok : Ok build (fun t => Valid t 6) := by
  unfold build
  refine (forUp_ok (fun i t => Valid t (i - 1)) ?_ (by omega) (fun a t h1 h2 ht => ?_))
  · refine ⟨by simp, fun a ha => ?_⟩
    have : a = 0 := by omega
    subst this
    rw [Vec.get_set_self _ _ _ (by simp)]
    have P0 : primorialP 0 = 1 := by simp [primorialP]
    rw [P0]
    refine ⟨by decide, fun x hx => ?_⟩
    have : x = 0 := by omega
    subst this
    rw [phi_zero]; decide
  · obtain ⟨c1, _, c3⟩ := tab_consts a (by omega)
    rw [c1, c3 h1]
    simp only [ok_bind]
    refine Ok.bind (forUp_map (n := primorialP a) (fun x _ => (phi x a : ℤ)) (by simp)
      (fun x row _ hx hrow => ?_)) (fun row hrow => ?_)
    · have hx31 : x < 2 ^ 31 := by have := primorial_le a (by omega); omega
      rw [phiT_ok ht (by omega) (by omega) _ hx31, cdiv_ok (prm_pos a)]
      simp only [ok_bind]
      rw [phiT_ok ht (by omega) (by omega) _ (lt_of_le_of_lt (Nat.div_le_self _ _) hx31)]
      simp only [ok_bind]
      have hs : phi x (a - 1) = phi x a + phi (x / prm a) (a - 1) := by
        have := phi_succ x (a - 1)
        rwa [show a - 1 + 1 = a by omega] at this
      have hv : Int.bmod ((phi x (a - 1) : ℤ) - phi (x / prm a) (a - 1)) (2 ^ 16) = phi x a := by
        have h1 := phi_le_self x a
        have h2 := primorial_le a (by omega)
        rw [show ((phi x (a - 1) : ℤ) - phi (x / prm a) (a - 1)) = phi x a by omega]
        apply Int.bmod_eq_of_le
        · omega
        · norm_num; omega
      rw [hv]
      exact wr_map hrow hx _
    · refine (wr_map ht.1 (by omega) _).mono (fun t' ht' => ⟨ht'.1, fun b hb => ?_⟩)
      rw [ht'.2]
      split
      · rename_i h
        subst h
        refine ⟨hrow.1, fun x hx => ?_⟩
        rw [hrow.2, if_pos ⟨by omega, hx⟩]
      · exact ht.2 b (by omega)

theorem phiTiny_ok {tabs : Vec Tab} (ht : Valid tabs 6) {a : ℕ} (ha : a ≤ 6) (x : ℕ) (hx : x < 2 ^ 63) :
    phiTiny tabs x a = .ok (phi x a : ℤ) := by
  unfold phiTiny
  split
  · exact phiU32_ok ht ha le_rfl x (by omega)
  · exact phiT_ok ht ha le_rfl x hx

theorem getC_ok (y : ℕ) : getC y = .ok (min 6 (π y)) := by
  unfold getC
  split
  · have : 6 ≤ π y := le_trans (by decide : 6 ≤ π 13) (pi_mono (by assumption))
    rw [Nat.min_eq_left this]; rfl
  · rename_i h
    push Not at h
    interval_cases y <;> decide

end PhiTiny

/-- The types chosen by `S2_trivial` and `S2_easy` hold the prime sums. -/
theorem sums_width {y : ℕ} (hy : y < 2 ^ 63) : y * (y + 1) < 2 * 2 ^ (if y ≤ 2 ^ 32 - 1 then 64 else 127) := by
  split
  · rename_i h
    have : y < 2 ^ 32 := by omega
    nlinarith
  · nlinarith

/-- The types chosen by `S2_easy` hold the primes. -/
theorem primes_width {y : ℕ} (hy : y < 2 ^ 63) : y < 2 ^ (if y ≤ 2 ^ 32 - 1 then 32 else 63) := by
  split <;> omega

end PS
