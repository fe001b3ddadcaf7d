import Verif.Proof.SegSieve
import Verif.Proof.BRes
import Verif.Proof.LoadBalancer
import Verif.Proof.Misc
import Verif.Proof.FactorTable

/-!
# S2_hard: one segment
-/

namespace PS
open Finset BitSieve FactorTable Cfg
open scoped Classical
open Res
local notation "π" => Nat.primeCounting

/-- The end of the interval processed for `j` while the loop over `b` runs. -/
def hS (b low high j : ℕ) : ℕ := if j < b then high else low

theorem hS_self {b low high : ℕ} : hS b low high b = low := by simp [hS]

theorem hS_update {b low high : ℕ} : Function.update (hS b low high) b high = hS (b + 1) low high := by
  funext j
  unfold hS
  by_cases h : j = b
  · subst h; simp
  · rw [Function.update_of_ne h]
    by_cases h1 : j < b
    · rw [if_pos h1, if_pos (by omega)]
    · rw [if_neg h1, if_neg (by omega)]

namespace S2Hard

set_option linter.unusedSectionVars false

variable {R : Type} [Res R] [Inhabited R] {S : BRes R} {g : Cfg}

/-- Numeric side conditions for a segment. -/
structure Seg (S : BRes R) (g : Cfg) (L0 low high Sz : ℕ) : Prop where
  good : g.Good
  c4 : 4 ≤ g.c ∨ π g.y ≤ g.c
  c10 : g.c < 10
  L01 : 1 ≤ L0
  hL : L0 ≤ low
  lt : low < high
  odd : low % 2 = 1
  sz : high - low ≤ Sz
  even : Sz % 2 = 0
  b62 : high + 128 < 2 ^ 62
  w59 : S.mod ∣ 2 ^ 64 ∨ high + 128 < 2 ^ 59
  w58 : S.mod ∣ 2 ^ 64 ∨ 4 ≤ g.c ∨ high + 128 < 2 ^ 58
  y63 : g.y < 2 ^ 63
  p32 : ∀ b, g.Live low b → prm b < 2 ^ 32
  sz62 : Sz ≤ 2 ^ 62

/-- `a` stands for `z` modulo `m` and is at most `T` too small. -/
def Near (m a z T : ℤ) : Prop := m ∣ a - z ∧ z - T ≤ a ∧ a ≤ z

theorem Near.refl {m a T : ℤ} (hT : 0 ≤ T) : Near m a a T := ⟨by rw [sub_self]; exact dvd_zero _, by omega, le_rfl⟩

theorem Near.add {m a z T a' z' T' : ℤ} (h : Near m a z T) (h' : Near m a' z' T') : Near m (a + a') (z + z') (T + T') :=
  ⟨dvd_congr (dvd_add h.1 h'.1) (by ring), by have := h.2; have := h'.2; omega, by have := h.2; have := h'.2; omega⟩

theorem Near.mono {m a z T T' : ℤ} (h : Near m a z T) (hT : T ≤ T') : Near m a z T' :=
  ⟨h.1, by have := h.2; omega, h.2.2⟩

/-- How the unsieved numbers are summed. -/
def SumOk (S : BRes R) (few : Bool) (low high Sz : ℕ) (st : St R) : Prop :=
  (few = true → Near S.mod st.slh (bsum st.sieve.sieve low 0 ((high - low + 1) / 2) : ℕ) (Tot low high)) ∧
  (few = false → TreeOk low (Sz / 2) st.sieve st.tree)

/-- The invariant of the loops over `b` for the segment `[low, high)`. -/
structure Inv (S : BRes R) (g : Cfg) (few : Bool) (L0 low high Sz N b : ℕ) (st : St R) : Prop where
  sv : SvOk low high b st.sieve
  szE : st.sieve.size = Sz
  ssz : Sz ≤ 128 * st.sieve.sieve.size
  wsz : st.wheel.size = N
  psz : st.phi.size = N
  msz : st.muSum.size = N
  wh : ∀ j, j < N → g.Live (hS b low high j) j →
    ∃ i, Wheel.At (prm j) i (st.wheel.get j) ∧ Wheel.First (prm j) (hS b low high j) i
  sum : SumOk S few low high Sz st
  inv : ∃ s2z s2a muz mua phz, SegInv coef g L0 (hS b low high) N s2z muz phz ∧
    SegInv acoef g L0 (hS b low high) N s2a mua phz ∧ S.Rep st.s2 s2z s2a ∧
    (∀ j, j < N → S.Rep (st.muSum.get j) (muz j) (mua j)) ∧
    ∀ j, j < N → Near S.mod (st.phi.get j) (phz j) (Tot L0 (hS b low high j))

/-- `sum` agrees with `start`. -/
def StartOk (S : BRes R) (few : Bool) (low high : ℕ) (st : St R) (start : ℕ) (sum : ℤ) : Prop :=
  few = true → S.mod ∣ sum - (bsum st.sieve.sieve low 0 ((start + 1) / 2) : ℕ) ∧ -Tot low high ≤ sum ∧
    sum ≤ (bsum st.sieve.sieve low 0 ((start + 1) / 2) : ℕ) + Tot low high

theorem Tot_lt_124 {lo hi : ℕ} (h : hi < 2 ^ 62) : Tot lo hi < 2 ^ 124 := by
  refine lt_of_le_of_lt Tot_lt ?_
  have h1 : (hi : ℤ) ≤ 2 ^ 62 - 1 := by omega
  have h2 : (hi : ℤ) * hi ≤ (2 ^ 62 - 1) * (2 ^ 62 - 1) := mul_le_mul h1 h1 (by positivity) (by norm_num)
  omega

theorem leafSum_ok {few : Bool} {low high Sz b start stop : ℕ} {sum : ℤ} {st : St R} (hsv : SvOk low high b st.sieve)
    (hb : 2 ≤ b) (hsum : SumOk S few low high Sz st) (hlt : low + stop < high) (h62 : high + 128 < 2 ^ 62)
    (hft : Wraps S.mod st.sieve.sieve low ((high - low + 1) / 2)) (hsz : high - low ≤ Sz) (he : Sz % 2 = 0) (h0 : StartOk S few low high st start sum) (hs : start ≤ stop + 1) :
    Ok (leafSum few st low high start stop sum) (fun r => (S.mod ∣ r.1 - Rs b low (low + stop + 1) ∧ -Tot low high ≤ r.1 ∧
      r.1 ≤ Rs b low (low + stop + 1) + Tot low high) ∧
      StartOk S few low high st r.2 r.1 ∧ r.2 ≤ max start (stop + 1)) := by
  unfold leafSum
  have e := bsum_eq_Rs hsv hb (t := stop + 1) (by omega)
  rw [← Nat.add_assoc] at e
  have hT0 := Tot_nonneg (lo := low) (hi := high)
  refine Ok.ite (fun hf => ?_) (fun hf => ?_)
  · obtain ⟨m1, l1, u1⟩ := h0 hf
    obtain ⟨m2, l2, u2⟩ := hsum.1 hf
    have hT := Tot_lt_124 (lo := low) (hi := high) (by omega)
    have b1 := bsum_total (v := st.sieve.sieve) (low := low) (a := 0) (b := (start + 1) / 2) (by omega)
    have b2 := bsum_total (v := st.sieve.sieve) (low := low) (a := 0) (b := (high - low + 1) / 2) (by omega)
    have b3 := bsum_le_Tot (v := st.sieve.sieve) (low := low) (t := high - low)
    rw [show low + (high - low) = high by omega] at b3
    obtain ⟨r, hr, r1, r2⟩ := sum6_near (b := st.sieve) (start := start) (stop := stop) (by omega) hsv.size h62 hft (by omega) m1 m2
      (abs_le.2 ⟨by omega, by omega⟩) (abs_le.2 ⟨by omega, by omega⟩)
    rw [hr]
    simp only [ok_bind]
    have e1 := bsum_append (v := st.sieve.sieve) (low := low) (a := 0) (b := (start + 1) / 2) (c := stop / 2 + 1) (by omega) (by omega)
    have e2 := bsum_append (v := st.sieve.sieve) (low := low) (a := 0) (b := stop / 2 + 1) (c := (high - low + 1) / 2) (by omega) (by omega)
    have e3 : (stop + 1 + 1) / 2 = stop / 2 + 1 := by omega
    have h1 : S.mod ∣ sum + r - (bsum st.sieve.sieve low 0 (stop / 2 + 1) : ℕ) := by
      refine dvd_congr (dvd_add m1 r1) ?_
      rw [← e1]; push_cast; ring
    have h2 : -Tot low high ≤ sum + r ∧ sum + r ≤ (bsum st.sieve.sieve low 0 (stop / 2 + 1) : ℕ) + Tot low high := by
      rcases r2 with ⟨r2, r3⟩ | ⟨t, t0, t1, rfl⟩
      · omega
      · omega
    have b4 := bsum_total (v := st.sieve.sieve) (low := low) (a := 0) (b := stop / 2 + 1) (by omega)
    rw [fitI_ok (by omega) (by omega), ok_bind]
    refine Ok.pure ⟨?_, fun _ => ?_, by dsimp only; omega⟩
    · dsimp only
      rw [← e, e3]
      exact ⟨h1, h2⟩
    · dsimp only
      rw [e3]
      exact ⟨h1, h2⟩
  · have hf' : few = false := by simpa using hf
    rw [tree_sum hsv hb (hsum.2 hf') hlt (by omega)]
    simp only [ok_bind]
    have hR := Rs_nonneg (b := b) (lo := low) (hi := low + stop + 1)
    exact Ok.pure ⟨⟨by rw [sub_self]; exact dvd_zero _, by dsimp only; omega, by dsimp only; omega⟩, fun h => absurd h hf, by dsimp only; omega⟩

/-- The state of the loop over the leaves of `b`: the leaves in `D` are done, the remaining ones have
`m ≤ cur`. -/
structure LeafInv (S : BRes R) (g : Cfg) (few : Bool) (low high N b : ℕ) (st : St R) (s2z s2a : ℤ) (muz mua phz : ℕ → ℤ) (cur : ℕ) (D : Finset ℕ)
    (ls : LeafSt R) : Prop where
  start : StartOk S few low high st ls.start ls.sum
  cur : ∀ m, 1 ≤ m → m ≤ cur → ls.start ≤ g.xn b m - low + 1
  s2 : S.Rep ls.s2 (s2z + ∑ m ∈ D, coef b m * (phz b + Rs b low (g.xn b m + 1)))
    (s2a + ∑ m ∈ D, acoef b m * (phz b + Rs b low (g.xn b m + 1)))
  msz : ls.muSum.size = N
  muE : ∀ j, j < N → S.Rep (ls.muSum.get j) (if j = b then muz b + ∑ m ∈ D, coef b m else muz j)
    (if j = b then mua b + ∑ m ∈ D, acoef b m else mua j)

/-- Bounds for a product. -/
theorem mul_lt_126 {a b y : ℕ} (ha : a ≤ y) (hb : b ≤ y) (hy : y < 2 ^ 63) : (a : ℤ) * b < 2 ^ 126 := by
  have : a * b ≤ (2 ^ 63 - 1) * (2 ^ 63 - 1) := Nat.mul_le_mul (by omega) (by omega)
  have h2 : ((a * b : ℕ) : ℤ) < 2 ^ 126 := by
    have : a * b < 2 ^ 126 := by omega
    exact_mod_cast this
  push_cast at h2
  exact h2

theorem phi_bound' {L0 low high Sz N b t : ℕ} {h : ℕ → ℕ} {s2z : ℤ} {muz phi : ℕ → ℤ} (hS : Seg S g L0 low high Sz)
    (hi : SegInv coef g L0 h N s2z muz phi) (hb : h b = low) (hN : b < N) (hm : t ≤ high) (hm1 : low ≤ t) :
    0 ≤ phi b + Rs b low t ∧ phi b + Rs b low t < 2 ^ 124 := by
  have h1 := hi.nonneg b hN
  have h2 := hi.le b hN
  rw [hb] at h2
  have h3 := Rs_nonneg (b := b) (lo := low) (hi := t)
  have h4 := Rs_le_Tot (b := b) (lo := low) (hi := t)
  have h5 := Tot_add (lo := L0) (mid := low) (hi := t) hS.hL (by omega)
  have h6 := Tot_lt_124 (lo := L0) (hi := t) (by have := hS.b62; omega)
  constructor
  · omega
  · omega

theorem phi_bound {L0 low high Sz N b m : ℕ} {h : ℕ → ℕ} {s2z : ℤ} {muz phi : ℕ → ℤ} (hS : Seg S g L0 low high Sz)
    (hi : SegInv coef g L0 h N s2z muz phi) (hb : h b = low) (hN : b < N) (hm : g.xn b m < high) (hm1 : low ≤ g.xn b m) :
    0 ≤ phi b + Rs b low (g.xn b m + 1) ∧ phi b + Rs b low (g.xn b m + 1) < 2 ^ 124 :=
  phi_bound' hS hi hb hN hm (by omega)

/-- The sums of the words are right. -/
theorem Seg.wraps {L0 low high Sz b : ℕ} {s : BitSieve} (hS : Seg S g L0 low high Sz) (h : SvOk low high b s) (hb : 5 ≤ b) :
    Wraps S.mod s.sieve low ((high - low + 1) / 2) :=
  hS.w59.imp id (fun h59 => h.fits hb (by omega))

/-- What is multiplied with the coefficient of a leaf. -/
theorem leaf_near {L0 low high Sz N b m : ℕ} {h : ℕ → ℕ} {s2z p sum : ℤ} {muz phi : ℕ → ℤ} (hS : Seg S g L0 low high Sz)
    (hi : SegInv coef g L0 h N s2z muz phi) (hb : h b = low) (hN : b < N) (hm : g.xn b m < high) (hm1 : low ≤ g.xn b m)
    (hn : Near S.mod p (phi b) (Tot L0 low))
    (hs : S.mod ∣ sum - Rs b low (g.xn b m + 1) ∧ -Tot low high ≤ sum ∧ sum ≤ Rs b low (g.xn b m + 1) + Tot low high) :
    S.mod ∣ p + sum - (phi b + Rs b low (g.xn b m + 1)) ∧ -2 ^ 127 ≤ p + sum ∧ p + sum < 2 ^ 127 := by
  have h1 := phi_bound hS hi hb hN hm hm1
  have h2 := hi.nonneg b hN
  have h3 := Tot_lt_124 (lo := L0) (hi := low) (by have := hS.b62; have := hS.lt; omega)
  have h4 := Tot_lt_124 (lo := low) (hi := high) (by have := hS.b62; omega)
  have h5 := Tot_nonneg (lo := low) (hi := high)
  obtain ⟨a1, a2, a3⟩ := hn
  exact ⟨dvd_congr (dvd_add a1 hs.1) (by ring), by omega, by omega⟩

theorem rep_step {s p f : R} {sz sa pz fz : ℤ} (hs : S.Rep s sz sa) (hp : S.Rep p pz |pz|) (hf : S.Rep f fz |fz|) (h1 : -2 ^ 126 ≤ pz)
    (h2 : pz ≤ 2 ^ 126) (h3 : 0 ≤ fz) (h4 : fz ≤ 2 ^ 126) :
    S.Rep (add s (mul p f)) (sz + pz * fz) (sa + |pz| * fz) ∧ S.Rep (sub s (mul p f)) (sz - pz * fz) (sa + |pz| * fz) := by
  rw [abs_of_nonneg h3] at hf
  have := S.rep_mul _ _ _ _ _ _ hp hf (by omega) (by omega) (by omega) (by omega)
    (S.lim_small _ (lt_of_le_of_lt (abs_le.2 ⟨h1, h2⟩) (by norm_num))) (S.lim_small _ (by omega))
  exact ⟨S.rep_add _ _ _ _ _ _ hs this, S.rep_sub _ _ _ _ _ _ hs this⟩

/-- Adding a leaf. -/
theorem LeafInv.step {few : Bool} {low high N b cur m start : ℕ} {sum : ℤ} {D : Finset ℕ} {st : St R} {ls : LeafSt R} {s2z s2a : ℤ}
    {muz mua phz : ℕ → ℤ} {s2' mu' : R} (hl : LeafInv S g few low high N b st s2z s2a muz mua phz cur D ls) (hbN : b < N) (hmD : m ∉ D) (hmc : m ≤ cur)
    (h2 : StartOk S few low high st start sum) (h3 : start ≤ max ls.start (g.xn b m - low + 1))
    (hs2 : ∀ z a, S.Rep ls.s2 z a → S.Rep s2' (z + coef b m * (phz b + Rs b low (g.xn b m + 1)))
      (a + acoef b m * (phz b + Rs b low (g.xn b m + 1))))
    (hmu : ∀ z a, S.Rep (ls.muSum.get b) z a → S.Rep mu' (z + coef b m) (a + acoef b m)) :
    LeafInv S g few low high N b st s2z s2a muz mua phz m (insert m D) ⟨start, sum, s2', ls.muSum.set b mu'⟩ := by
  refine ⟨h2, ?_, ?_, ?_, ?_⟩
  · intro m' hm1 hm'
    have := xn_anti (g := g) (b := b) hm1 hm'
    have := hl.cur m' hm1 (by omega)
    dsimp only
    omega
  · rw [Finset.sum_insert hmD, Finset.sum_insert hmD]
    convert hs2 _ _ hl.s2 using 1 <;> ring
  · dsimp only; rw [Vec.size_set]; exact hl.msz
  · intro j hj
    dsimp only
    have hj' := hl.muE j hj
    rw [Vec.get_set]
    by_cases h : j = b
    · subst h
      rw [if_pos rfl, if_pos rfl] at hj' ⊢
      rw [if_pos ⟨rfl, by rw [hl.msz]; exact hbN⟩, Finset.sum_insert hmD, Finset.sum_insert hmD]
      convert hmu _ _ hj' using 1 <;> ring
    · rw [if_neg h, if_neg h] at hj' ⊢
      rw [if_neg (by omega)]
      exact hj'

/-- One leaf of the second kind. -/
theorem leafB_ok {few : Bool} {L0 low high Sz N b cur q : ℕ} {D : Finset ℕ} {st : St R} {ls : LeafSt R} {s2z s2a : ℤ} {muz mua phz : ℕ → ℤ}
    (hS : Seg S g L0 low high Sz) (hI : Inv S g few L0 low high Sz N b st) (hb : 5 ≤ b) (hbN : b < N)
    (hi : SegInv coef g L0 (PS.hS b low high) N s2z muz phz) (hn : Near S.mod (st.phi.get b) (phz b) (Tot L0 low))
    (hl : LeafInv S g few low high N b st s2z s2a muz mua phz cur D ls) (hq : q ∈ g.Lv b low high) (hqD : q ∉ D) (hqc : q ≤ cur)
    (hqp : q.Prime) (hpy : prm b ≤ g.y) :
    Ok (leafB few low high (prm b) (g.x / prm b) b st q ls) (LeafInv S g few low high N b st s2z s2a muz mua phz q (insert q D)) := by
  obtain ⟨hH, hlo, hhi⟩ := mem_Lv.1 hq
  have hgt := leaf_gt (mem_H.1 hH).1
  unfold leafB
  have hq1 := hqp.pos
  have hy := hS.y63
  rw [fastDivWide_ok _ _ _ hq1 (by show q < 2 ^ 64; omega), xn_eq]
  simp only [ok_bind]
  rw [csub_ok hlo]
  simp only [ok_bind]
  refine Ok.bind (leafSum_ok (stop := g.xn b q - low) hI.sv (by omega) hI.sum (by omega) hS.b62 (hS.wraps hI.sv (by omega)) hS.sz hS.even hl.start (hl.cur q hq1 hqc)) ?_
  rintro ⟨sum, start⟩ ⟨h1, h2, h3⟩
  dsimp only at h1 h2 h3 ⊢
  rw [show low + (g.xn b q - low) + 1 = g.xn b q + 1 by omega] at h1
  rw [Vec.rd_ok (by rw [hI.psz]; exact hbN), ok_bind]
  have hphi := phi_bound hS hi hS_self hbN hhi hlo
  have hfr := leaf_near hS hi hS_self hbN hhi hlo hn h1
  have hmul := mul_lt_126 hgt.2.1 hpy hS.y63
  have hmul0 : (0 : ℤ) ≤ (q : ℤ) * prm b := by positivity
  have hf1 : fitI 127 (st.phi.get b + sum) = .ok (st.phi.get b + sum) :=
    fitI_ok hfr.2.1 hfr.2.2
  have hf2 : fitI 127 ((q : ℤ) * prm b) = .ok ((q : ℤ) * prm b) := fitI_ok (by linarith) (by linarith)
  rw [hf1, ok_bind, hf2, ok_bind, Vec.rd_ok (by rw [hl.msz]; exact hbN)]
  simp only [ok_bind]
  rw [Vec.wr_ok (by rw [hl.msz]; exact hbN)]
  simp only [ok_bind]
  have hco : coef b q = (q : ℤ) * prm b := by
    unfold coef
    rw [show mu q = -1 from ArithmeticFunction.moebius_apply_prime hqp]
    ring
  have hpm := S.rep_ofInt ((q : ℤ) * prm b) (by omega) (by omega)
  have hfz : S.Rep (ofInt (st.phi.get b + sum) : R) (phz b + Rs b low (g.xn b q + 1))
      |phz b + Rs b low (g.xn b q + 1)| := S.rep_near _ _ hfr.2.1 hfr.2.2 hfr.1
  refine Ok.pure (hl.step hbN hqD hqc h2 h3 (fun z a hz => ?_) (fun z a hz => ?_))
  · unfold acoef
    rw [hco]
    exact (rep_step hz hpm hfz (by omega) (by omega) hphi.1 (by omega)).1
  · unfold acoef
    rw [hco]
    exact S.rep_add _ _ _ _ _ _ hz hpm

/-- The factor table decides which `m` are leaves. -/
structure FT (g : Cfg) (factors : Vec ℕ) : Prop where
  size : idx g.y < factors.size
  lpf : ∀ i b, num i ≤ g.y → prm b * prm b ≤ g.y → prm b < num i → 2 ≤ b →
    (prm b < factors.get i ↔ Squarefree (num i) ∧ ∀ q, q.Prime → q ∣ num i → prm b < q)
  mu : ∀ i, 1 < num i → num i ≤ g.y → Squarefree (num i) →
    FactorTable.mu factors i = .ok (ArithmeticFunction.moebius (num i))

theorem idx_le_idx {m n : ℕ} (h1 : 1 ≤ m) (h : m ≤ n) : idx m ≤ idx n := by
  have h2 : num (idx m) ≤ m := (num_le_iff h1).2 le_rfl
  exact (num_le_iff (by omega)).1 (h2.trans h)

theorem FT.of_table {tmax : ℕ} (htm : tmax = 2 ^ 16 - 1 ∨ tmax = 2 ^ 32 - 1) {t : Vec ℕ} (h : Table tmax g.y t)
    (hy : g.y ≤ FactorTable.max' tmax) (hy1 : 1 ≤ g.y) : FT g t := by
  have hle : ∀ i, num i ≤ g.y → i ≤ idx (max 8 g.y) := fun i hi => (num_le_iff (by omega)).1 (by omega)
  have ht : 8 ≤ tmax ∧ tmax % 2 = 1 := by omega
  refine ⟨?_, ?_, ?_⟩
  · rw [h.1]
    have := idx_le_idx hy1 (show g.y ≤ max 8 g.y by omega)
    omega
  · intro i b h1 h2 h3 hb
    rw [h.2 i (hle i h1)]
    refine lt_entry (cop_num i) h3 ?_ (prm_pos b) (prm_odd hb)
    by_contra hcc
    push Not at hcc
    have h3 := Nat.mul_le_mul hcc hcc
    unfold FactorTable.max' at hy
    have h4 : (tmax - 1) ^ 2 ≤ tmax * tmax := by rw [sq]; exact Nat.mul_le_mul (by omega) (by omega)
    have h5 : 0 < (tmax - 1) ^ 2 := Nat.pow_pos (by omega)
    omega
  · intro i h1 h2 hs
    unfold FactorTable.mu
    rw [Vec.rd_ok (by rw [h.1]; have := hle i h2; omega), h.2 i (hle i h2)]
    simp only [ok_bind, pure_eq_ok]
    rw [entry_mu (cop_num i) hs h1 ht.2]

theorem rough_iff_prime_lt {b m : ℕ} (hb : 1 ≤ b) : Rough b m ↔ ∀ q, q.Prime → q ∣ m → prm b < q := by
  constructor
  · intro h q hq hd
    by_contra hc
    push Not at hc
    have hqi : π q ≤ b := by
      have := pi_mono hc
      rwa [pi_prm hb] at this
    have := h (π q) (pi_pos hq.two_le) hqi
    rw [prm_pi hq] at this
    exact this hd
  · intro h i h1 h2 hd
    have := h _ (prm_prime i) hd
    have h3 := prm_le_prm (i := i) (j := b) (by omega)
    omega

/-- The leaves of `b ≤ S` in an interval, `p_b² ≤ y`. -/
theorem mem_Lv_A {b low high m : ℕ} (hb1 : 1 ≤ b) (hbS : b ≤ g.S) (hc : g.c < b) (hpp : prm b * prm b ≤ g.y) (hl : 1 ≤ low)
    (hlh : low < high) :
    m ∈ g.Lv b low high ↔ (m ≤ min (g.x / prm b / low) g.y ∧ max (min (g.x / prm b / high) g.y) (g.y / prm b) < m ∧
      Squarefree m ∧ ∀ q, q.Prime → q ∣ m → prm b < q) := by
  have hp := prm_pos b
  rw [mem_Lv, mem_H, ← rough_iff_prime_lt hb1]
  unfold specialLeaves
  simp only [Finset.mem_filter, Finset.mem_product, Finset.mem_Icc]
  have hbpi : b ≤ π g.y := by
    rw [← prm_le_iff_le_pi hb1]
    have := Nat.le_mul_of_pos_left (prm b) hp
    omega
  have hyp : g.y < m * prm b ↔ g.y / prm b < m := (Nat.div_lt_iff_lt_mul hp).symm
  rw [hyp]
  constructor
  · rintro ⟨⟨⟨⟨⟨h1, h2⟩, h3, h4⟩, h5, h6, h7⟩, -⟩, h8, h9⟩
    rw [le_xn_iff (by omega) hl] at h8
    rw [xn_lt_iff (by omega) (by omega)] at h9
    exact ⟨by omega, by omega, h6, h7⟩
  · rintro ⟨h1, h2, h3, h4⟩
    have hm1 : 1 ≤ m := lt_of_le_of_lt (Nat.zero_le _) h2
    have h1a := h1.trans (min_le_left _ _)
    have h1b := h1.trans (min_le_right _ _)
    have h2a := lt_of_le_of_lt (le_max_left _ _) h2
    have h2b := lt_of_le_of_lt (le_max_right _ _) h2
    refine ⟨⟨⟨⟨⟨by omega, hbpi⟩, by omega, by omega⟩, by omega, h3, h4⟩, Or.inl hbS⟩, ?_, ?_⟩
    · rw [le_xn_iff (by omega) hl]; omega
    · rw [xn_lt_iff (by omega) (by omega)]; omega

/-- One value of `m` in the loop over the leaves of the first kind. -/
theorem leafA_ok {few : Bool} {L0 low high Sz N b i : ℕ} {st : St R} {ls : LeafSt R} {s2z s2a : ℤ} {muz mua phz : ℕ → ℤ} {factors : Vec ℕ}
    (hS : Seg S g L0 low high Sz) (hF : FT g factors) (hI : Inv S g few L0 low high Sz N b st) (hbN : b < N) (hc : g.c < b)
    (hbS : b ≤ g.S) (hpp : prm b * prm b ≤ g.y)
    (hi : SegInv coef g L0 (PS.hS b low high) N s2z muz phz) (hn : Near S.mod (st.phi.get b) (phz b) (Tot L0 low))
    (hi1 : max (min (g.x / prm b / high) g.y) (g.y / prm b) < num i) (hi2 : num i ≤ min (g.x / prm b / low) g.y)
    (hl : LeafInv S g few low high N b st s2z s2a muz mua phz (num i) ((g.Lv b low high).filter (num i < ·)) ls) :
    Ok (leafA few factors low high (prm b) (g.x / prm b) b st i ls)
      (LeafInv S g few low high N b st s2z s2a muz mua phz (num (i - 1)) ((g.Lv b low high).filter (num (i - 1) < ·))) := by
  have hp := prm_pos b
  have hy := hS.y63
  have hc4 : 4 ≤ g.c := by
    have h1 := hS.c4
    have h2 : prm b ≤ g.y := le_trans (Nat.le_mul_self _) hpp
    have h3 := (prm_le_iff_le_pi (by omega)).1 h2
    omega
  have hyp : prm b ≤ g.y / prm b := (Nat.le_div_iff_mul_le hp).2 hpp
  have hpi : prm b < num i := by omega
  have hpy : prm b ≤ g.y := by omega
  have hi0 : 1 ≤ i := by
    rcases Nat.eq_zero_or_pos i with rfl | h
    · rw [show num 0 = 1 from rfl] at hpi; omega
    · exact h
  have hlt : num (i - 1) < num i := num_lt_num.2 (by omega)
  have hlpf := hF.lpf i b (by omega) hpp hpi (by omega)
  have hmem := mem_Lv_A (g := g) (m := num i) (high := high) (by omega) hbS hc hpp (show 1 ≤ low by have := hS.L01; have := hS.hL; omega) hS.lt
  have hisz : i < factors.size := by
    have h1 : i ≤ idx g.y := (num_le_iff (by omega)).1 (by omega)
    have := hF.size
    omega
  -- numbers between two wheel numbers are no leaves
  have hgap : ∀ m, m ∈ g.Lv b low high → num (i - 1) < m → m < num i → False := by
    intro m hm h1 h2
    obtain ⟨hH, -, -⟩ := mem_Lv.1 hm
    have h3 := (mem_H.1 hH).1
    have hr : Rough b m := by
      unfold specialLeaves at h3
      simp only [Finset.mem_filter] at h3
      exact h3.2.2.2
    obtain ⟨k, rfl⟩ := cop_iff.1 (cop_of_rough (a := b) (by omega) hr)
    rw [num_lt_num] at h1 h2
    omega
  unfold leafA FactorTable.lpf
  rw [Vec.rd_ok hisz]
  simp only [ok_bind]
  refine Ok.ite (fun hcd => ?_) (fun hcd => ?_)
  · have hm : num i ∈ g.Lv b low high := hmem.2 ⟨hi2, hi1, hlpf.1 hcd⟩
    have hset : (g.Lv b low high).filter (num (i - 1) < ·) = insert (num i) ((g.Lv b low high).filter (num i < ·)) := by
      ext m
      simp only [Finset.mem_filter, Finset.mem_insert]
      constructor
      · rintro ⟨h1, h2⟩
        rcases lt_trichotomy m (num i) with h | h | h
        · exact absurd h (fun h => hgap m h1 h2 h)
        · exact Or.inl h
        · exact Or.inr ⟨h1, h⟩
      · rintro (rfl | ⟨h1, h2⟩)
        · exact ⟨hm, hlt⟩
        · exact ⟨h1, by omega⟩
    obtain ⟨hH, hlo, hhi⟩ := mem_Lv.1 hm
    rw [getNumber_ok]
    simp only [ok_bind]
    rw [fastDivWide_ok _ _ _ (by omega) (by show num i < 2 ^ 64; omega), xn_eq]
    simp only [ok_bind]
    rw [csub_ok hlo]
    simp only [ok_bind]
    refine Ok.bind (leafSum_ok (stop := g.xn b (num i) - low) hI.sv (by omega) hI.sum (by omega) hS.b62 (hS.wraps hI.sv (by omega)) hS.sz hS.even hl.start
      (hl.cur _ (by omega) le_rfl)) ?_
    rintro ⟨sum, start⟩ ⟨h1, h2, h3⟩
    dsimp only at h1 h2 h3 ⊢
    rw [show low + (g.xn b (num i) - low) + 1 = g.xn b (num i) + 1 by omega] at h1
    rw [Vec.rd_ok (by rw [hI.psz]; exact hbN)]
    simp only [ok_bind]
    have hphi := phi_bound hS hi hS_self hbN hhi hlo
    have hfr := leaf_near hS hi hS_self hbN hhi hlo hn h1
    rw [fitI_ok hfr.2.1 hfr.2.2, ok_bind, hF.mu i (by omega) (by omega) (hlpf.1 hcd).1]
    simp only [ok_bind]
    have hmul := mul_lt_126 (show num i ≤ g.y by omega) hpy hS.y63
    have hmul0 : (0 : ℤ) ≤ (num i : ℤ) * prm b := by positivity
    have hco : coef b (num i) = -(ArithmeticFunction.moebius (num i) * num i * prm b) := by
      unfold coef mu; ring
    have hab : -2 ^ 126 ≤ ArithmeticFunction.moebius (num i) * num i * prm b ∧
        ArithmeticFunction.moebius (num i) * num i * prm b ≤ 2 ^ 126 := by
      rw [mul_assoc]
      have h4 := ArithmeticFunction.abs_moebius_le_one (n := num i)
      rw [abs_le] at h4
      have h5 : ArithmeticFunction.moebius (num i) = -1 ∨ ArithmeticFunction.moebius (num i) = 0 ∨
        ArithmeticFunction.moebius (num i) = 1 := by omega
      rcases h5 with h5 | h5 | h5 <;> rw [h5] <;> omega
    rw [fitI_ok (by omega) (by omega), ok_bind, Vec.rd_ok (by rw [hl.msz]; exact hbN)]
    simp only [ok_bind]
    rw [Vec.wr_ok (by rw [hl.msz]; exact hbN)]
    simp only [ok_bind]
    have hpm := S.rep_ofInt (ArithmeticFunction.moebius (num i) * num i * prm b) (by omega) (by omega)
    have hfz : S.Rep (ofInt (st.phi.get b + sum) : R) (phz b + Rs b low (g.xn b (num i) + 1))
        |phz b + Rs b low (g.xn b (num i) + 1)| := S.rep_near _ _ hfr.2.1 hfr.2.2 hfr.1
    rw [hset]
    have hstep := hl.step (s2' := sub ls.s2 (mul (ofInt (ArithmeticFunction.moebius (num i) * num i * prm b)) (ofInt (st.phi.get b + sum))))
      (mu' := sub (ls.muSum.get b) (ofInt (ArithmeticFunction.moebius (num i) * num i * prm b))) hbN (by simp) le_rfl h2 h3
      (fun z a hz => by
        unfold acoef
        rw [hco, abs_neg]
        have := (rep_step hz hpm hfz hab.1 hab.2 hphi.1 (by omega)).2
        rw [neg_mul, ← sub_eq_add_neg]
        exact this)
      (fun z a hz => by
        unfold acoef
        rw [hco, ← sub_eq_add_neg, abs_neg]
        exact S.rep_sub _ _ _ _ _ _ hz hpm)
    refine Ok.pure ⟨hstep.start, fun m h4 h5 => hstep.cur m h4 (by omega), hstep.s2, hstep.msz, hstep.muE⟩
  · have hset : (g.Lv b low high).filter (num (i - 1) < ·) = (g.Lv b low high).filter (num i < ·) := by
      ext m
      simp only [Finset.mem_filter]
      constructor
      · rintro ⟨h1, h2⟩
        refine ⟨h1, ?_⟩
        rcases lt_trichotomy m (num i) with h | h | h
        · exact absurd h (fun h => hgap m h1 h2 h)
        · subst h
          exact absurd (hlpf.2 (hmem.1 h1).2.2) hcd
        · exact h
      · rintro ⟨h1, h2⟩
        exact ⟨h1, by omega⟩
    rw [hset]
    exact Ok.pure ⟨hl.start, fun m h4 h5 => hl.cur m h4 (by omega), hl.s2, hl.msz, hl.muE⟩

theorem Live.b5 {low b : ℕ} (h4 : 4 ≤ g.c ∨ π g.y ≤ g.c) (h : g.Live low b) : 5 ≤ b := by
  have h1 := h.1
  have h2 := h.2.1
  omega

/-- Common part of `finish` for both ways of summing. -/
theorem Inv.next {few : Bool} {L0 low high Sz N b : ℕ} {st : St R} {ls : LeafSt R} {s2z s2a : ℤ} {muz mua phz : ℕ → ℤ}
    (hS : Seg S g L0 low high Sz) (hI : Inv S g few L0 low high Sz N b st) (hbN : b < N) (hlive : g.Live low b)
    (hi : SegInv coef g L0 (PS.hS b low high) N s2z muz phz)
    (ha : SegInv acoef g L0 (PS.hS b low high) N s2a mua phz) {cur : ℕ}
    (hl : LeafInv S g few low high N b st s2z s2a muz mua phz cur (g.Lv b low high) ls) {s' : BitSieve} {w' : Wheel.Item} {t' : BIT} {slh' v : ℤ}
    (h1 : SvOk low high (b + 1) s') (h2 : s'.size = st.sieve.size) (h2' : s'.sieve.size = st.sieve.sieve.size)
    (h3 : ∃ j, Wheel.At (prm b) j w' ∧ Wheel.First (prm b) high j)
    (hn : ∀ j, j < N → Near S.mod (st.phi.get j) (phz j) (Tot L0 (PS.hS b low high j))) (hv : Near S.mod v (Rs b low high) (Tot low high))
    (h4 : SumOk S few low high Sz (⟨s', st.wheel.set b w', st.phi.set b (st.phi.get b + v), ls.muSum, ls.s2, t', slh'⟩ : St R)) :
    Inv S g few L0 low high Sz N (b + 1)
      ⟨s', st.wheel.set b w', st.phi.set b (st.phi.get b + v), ls.muSum, ls.s2, t', slh'⟩ := by
  refine ⟨h1, h2.trans hI.szE, by dsimp only; rw [h2']; exact hI.ssz, ?_, ?_, hl.msz, ?_, h4, ?_⟩
  · dsimp only; rw [Vec.size_set]; exact hI.wsz
  · dsimp only; rw [Vec.size_set]; exact hI.psz
  · intro j hj hlj
    dsimp only
    rw [Vec.get_set]
    by_cases h : b = j
    · subst h
      rw [if_pos ⟨rfl, by rw [hI.wsz]; exact hbN⟩]
      rw [show PS.hS (b + 1) low high b = high by simp [PS.hS]]
      exact h3
    · rw [if_neg (by omega)]
      have e : PS.hS (b + 1) low high j = PS.hS b low high j := by
        rw [← hS_update, Function.update_of_ne (by omega)]
      rw [e] at hlj ⊢
      exact hI.wh j hj hlj
  · have hphi : ∀ j, j < N → (fun j => if j = b then phz b + Rs b low high else phz j) j =
        if j = b then phz b + Rs b low high else phz j := fun j _ => rfl
    refine ⟨_, _, _, _, fun j => if j = b then phz b + Rs b low high else phz j, ?_, ?_, hl.s2, hl.muE, fun j hj => ?_⟩
    · rw [← hS_update]
      exact hi.step hS_self hbN hS.hL hS.lt.le hlive (fun j hj => rfl) hphi
    · rw [← hS_update]
      exact ha.step hS_self hbN hS.hL hS.lt.le hlive (fun j hj => rfl) hphi
    · dsimp only
      have hnj := hn j hj
      rw [Vec.get_set, ← hS_update]
      by_cases h : b = j
      · subst h
        rw [if_pos ⟨rfl, by rw [hI.psz]; exact hbN⟩, if_pos rfl, Function.update_self, ← Tot_add hS.hL hS.lt.le]
        rw [hS_self] at hnj
        exact hnj.add hv
      · rw [if_neg (by omega), if_neg (by omega), Function.update_of_ne (by omega)]
        exact hnj

theorem finish_ok {few : Bool} {L0 low high Sz N b : ℕ} {st : St R} {ls : LeafSt R} {s2z s2a : ℤ} {muz mua phz : ℕ → ℤ}
    (hS : Seg S g L0 low high Sz) (hI : Inv S g few L0 low high Sz N b st) (hbN : b < N) (hlive : g.Live low b)
    (hi : SegInv coef g L0 (PS.hS b low high) N s2z muz phz)
    (ha : SegInv acoef g L0 (PS.hS b low high) N s2a mua phz) {cur : ℕ}
    (hn : ∀ j, j < N → Near S.mod (st.phi.get j) (phz j) (Tot L0 (PS.hS b low high j)))
    (hl : LeafInv S g few low high N b st s2z s2a muz mua phz cur (g.Lv b low high) ls) :
    Ok (finish few low high (prm b) b { st with s2 := ls.s2, muSum := ls.muSum }) (Inv S g few L0 low high Sz N (b + 1)) := by
  have hb5 := Live.b5 hS.c4 hlive
  obtain ⟨i, hat, hf⟩ := hI.wh b hbN (by rw [hS_self]; exact hlive)
  rw [hS_self] at hf
  unfold finish
  dsimp only
  rw [Vec.rd_ok (by rw [hI.psz]; exact hbN)]
  simp only [ok_bind]
  rw [Vec.rd_ok (by rw [hI.wsz]; exact hbN)]
  simp only [ok_bind]
  have hlt := hS.lt
  have h62 := hS.b62
  have hp32 := hS.p32 b hlive
  have e := bsum_eq_Rs hI.sv (by omega) (t := high - low) (by omega)
  rw [show low + (high - low) = high by omega] at e
  have hphi := phi_bound' hS hi hS_self hbN le_rfl hlt.le
  have hnb := hn b hbN
  rw [hS_self] at hnb
  obtain ⟨-, n2, n3⟩ := id hnb
  have p0 := hi.nonneg b hbN
  have t1 := Tot_lt_124 (lo := L0) (hi := low) (by omega)
  have t2 := Tot_lt_124 (lo := low) (hi := high) (by omega)
  have t3 := Tot_nonneg (lo := low) (hi := high)
  have r0 := Rs_nonneg (b := b) (lo := low) (hi := high)
  refine Ok.ite (fun hfew => ?_) (fun hfew => ?_)
  · have hslh := hI.sum.1 hfew
    obtain ⟨s1, s2, s3⟩ := id hslh
    have hslR : Near S.mod st.slh (Rs b low high) (Tot low high) := by rw [← e]; exact hslh
    have hb1 := bsum_total (v := st.sieve.sieve) (low := low) (a := 0) (b := (high - low + 1) / 2) (by omega)
    rw [fitI_ok (by omega) (by omega), ok_bind, Vec.wr_ok (by rw [hI.psz]; exact hbN)]
    simp only [ok_bind]
    refine Ok.bind (crossOff_ok hI.sv hb5 hat hf hlt.le (by omega) (by omega)) ?_
    rintro ⟨sum, s', w'⟩ ⟨a1, a2, a3, a4, a5⟩
    dsimp only at a1 a2 a3 a4 a5 ⊢
    rw [Vec.wr_ok (by rw [hI.wsz]; exact hbN)]
    simp only [ok_bind]
    have hb2 := bsum_total (v := s'.sieve) (low := low) (a := 0) (b := (high - low + 1) / 2) (by omega)
    rw [fitI_ok (by omega) (by omega), ok_bind]
    refine Ok.pure (hI.next hS hbN hlive hi ha hl a1 a2 a3 a4 hn hslR ⟨fun _ => ?_, fun h => absurd hfew (by simp [h])⟩)
    refine ⟨dvd_congr s1 ?_, ?_, ?_⟩
    · dsimp only; omega
    · dsimp only; omega
    · dsimp only; omega
  · have hfew' : few = false := by simpa using hfew
    rw [csub_ok (by omega)]
    simp only [ok_bind]
    rw [tree_sum hI.sv (by omega) (hI.sum.2 hfew') (by omega) (by have := hS.sz; have := hS.even; omega)]
    simp only [ok_bind]
    rw [show low + (high - 1 - low) + 1 = high by omega, fitI_ok (by omega) (by omega), ok_bind]
    rw [Vec.wr_ok (by rw [hI.psz]; exact hbN)]
    simp only [ok_bind]
    refine Ok.bind (crossOffTree_ok hI.sv hb5 hat hf hlt.le (hI.sum.2 hfew') (by have := hS.sz; have := hS.even; omega) (by omega)) ?_
    rintro ⟨t', s', w'⟩ ⟨a1, a2, a3, a4, a5⟩
    dsimp only at a1 a2 a3 a4 a5 ⊢
    rw [Vec.wr_ok (by rw [hI.wsz]; exact hbN)]
    simp only [ok_bind]
    exact Ok.pure (hI.next hS hbN hlive hi ha hl a1 a2 a3 a4 hn (Near.refl t3) ⟨fun h => absurd h hfew, fun _ => a5⟩)

theorem LeafInv.init {few : Bool} {low high N b cur : ℕ} {st : St R} {s2z s2a : ℤ} {muz mua phz : ℕ → ℤ} (hs2 : S.Rep st.s2 s2z s2a)
    (hmu : ∀ j, j < N → S.Rep (st.muSum.get j) (muz j) (mua j)) (hsz : st.muSum.size = N) :
    LeafInv S g few low high N b st s2z s2a muz mua phz cur ∅ (LeafSt.mk 0 0 st.s2 st.muSum) := by
  refine ⟨fun _ => ⟨by simp [bsum], by have := Tot_nonneg (lo := low) (hi := high); dsimp only; omega, by have := Tot_nonneg (lo := low) (hi := high); simp [bsum]; omega⟩, fun m _ _ => Nat.zero_le _, by simpa using hs2, hsz, fun j hj => ?_⟩
  have := hmu j hj
  by_cases h : j = b
  · subst h; simpa using this
  · rw [if_neg h, if_neg h]; exact this

theorem bodyA_ok {few : Bool} {L0 low high Sz N b n : ℕ} {st : St R} {factors primes : Vec ℕ}
    (hS : Seg S g L0 low high Sz) (hF : FT g factors) (hP : PrimePrefix primes n) (hN : N ≤ n + 1)
    (hI : Inv S g few L0 low high Sz N b st) (hbN : b < N) (hc : g.c < b)
    (hbS : b ≤ g.S) (hpp : prm b * prm b ≤ g.y) :
    Ok (bodyA few g.x g.y primes factors low high b st) (fun r =>
      (r.1 = true → ¬ g.Live low b ∧ Inv S g few L0 low high Sz N b r.2) ∧
      (r.1 = false → Inv S g few L0 low high Sz N (b + 1) r.2)) := by
  have hp := prm_pos b
  have hy := hS.y63
  have hlt := hS.lt
  have hL1 : 1 ≤ low := by have := hS.L01; have := hS.hL; omega
  have h62 := hS.b62
  unfold bodyA
  rw [hP.rd (by omega) (by omega)]
  simp only [ok_bind]
  rw [cdiv_ok hp]
  simp only [ok_bind]
  rw [fastDivWide_ok _ _ _ (by omega) (by show high < 2 ^ 64; omega)]
  simp only [ok_bind]
  rw [cdiv_ok hp]
  simp only [ok_bind]
  rw [fastDivWide_ok _ _ _ (by omega) (by show low < 2 ^ 64; omega)]
  simp only [ok_bind]
  have hyp : prm b ≤ g.y / prm b := (Nat.le_div_iff_mul_le hp).2 hpp
  have hbpi : b ≤ π g.y := by
    rw [← prm_le_iff_le_pi (by omega)]
    have := Nat.le_mul_of_pos_left (prm b) hp
    omega
  have hliveiff : g.Live low b ↔ prm b < min (g.x / prm b / low) g.y := by
    unfold Live
    rw [if_pos hbS]
    exact ⟨fun h => h.2.2, fun h => ⟨hc, hbpi, h⟩⟩
  refine Ok.ite (fun hj => Ok.pure ⟨fun _ => ⟨by rw [hliveiff]; omega, hI⟩, fun h => by simp at h⟩) (fun hj => ?_)
  have hlive : g.Live low b := by rw [hliveiff]; omega
  set lo := max (min (g.x / prm b / high) g.y) (g.y / prm b) with hlo
  set up := min (g.x / prm b / low) g.y with hup
  have hlo1 : 1 ≤ lo := by
    have := le_max_right (min (g.x / prm b / high) g.y) (g.y / prm b)
    omega
  have hup1 : 1 ≤ up := by omega
  rw [getIndex_ok hlo1]
  simp only [ok_bind]
  rw [getIndex_ok hup1]
  simp only [ok_bind]
  have hmemA := fun m => mem_Lv_A (g := g) (m := m) (high := high) (low := low) (by omega) hbS hc hpp hL1 hlt
  obtain ⟨s2z, s2a, muz, mua, phz, hi, ha, hs2, hmu, hn⟩ := hI.inv
  have hlo_le : lo ≤ up ∨ up < lo := by omega
  have hempty : (g.Lv b low high).filter (num (idx up) < ·) = ∅ := by
    rw [Finset.filter_eq_empty_iff]
    intro m hm hcon
    have h1 := ((hmemA m).1 hm).1
    have hc5 : 4 ≤ g.c := by
      have h1 := hS.c4
      have h2 : prm b ≤ g.y := le_trans (Nat.le_mul_self _) hpp
      have h3 := (prm_le_iff_le_pi (by omega)).1 h2
      omega
    have hco : Cop m := by
      refine cop_of_rough (a := b) (by omega) ?_
      have h3 := (mem_H.1 (mem_Lv.1 hm).1).1
      unfold specialLeaves at h3
      simp only [Finset.mem_filter] at h3
      exact h3.2.2.2
    have h2 := idx_le_idx (cop_pos hco) h1
    have h3 := num_le_num.2 h2
    rw [num_idx hco] at h3
    exact absurd hcon (not_lt.2 h3)
  have hinit := LeafInv.init (g := g) (few := few) (low := low) (high := high) (b := b) (phz := phz) (cur := num (idx up)) hs2 hmu hI.msz
  have hfull : ∀ k, num k ≤ lo → (g.Lv b low high).filter (num k < ·) = g.Lv b low high := by
    intro k hk
    rw [Finset.filter_eq_self]
    intro m hm
    have := ((hmemA m).1 hm).2.1
    omega
  refine Ok.bind (P := fun ls => ∃ cur, LeafInv S g few low high N b st s2z s2a muz mua phz cur (g.Lv b low high) ls) ?_ ?_
  · rcases Nat.lt_or_ge (idx up) (idx lo) with hcase | hcase
    · unfold forDown
      rw [if_neg (by omega)]
      refine Ok.ok ⟨num (idx up), ?_⟩
      rw [← hfull (idx up) ?_, hempty]
      · exact hinit
      · exact (num_le_num.2 hcase.le).trans ((num_le_iff hlo1).2 le_rfl)
    · refine (forDown_ok (fun i ls => LeafInv S g few low high N b st s2z s2a muz mua phz (num i) ((g.Lv b low high).filter (num i < ·)) ls)
        (by rw [hempty]; exact hinit) hcase (fun i ls h1 h2 h3 => ?_)).mono (fun ls h => ⟨num (idx lo), ?_⟩)
      · refine leafA_ok hS hF hI hbN hc hbS hpp hi (by have := hn b hbN; rwa [hS_self] at this) ?_ ?_ h3
        · rw [← hlo]
          by_contra hcon
          push Not at hcon
          have := (num_le_iff hlo1).1 hcon
          omega
        · rw [← hup]
          exact (num_le_iff hup1).2 h2
      · rw [hfull _ ((num_le_iff hlo1).2 le_rfl)] at h
        exact h
  · rintro ls ⟨cur, hl⟩
    refine Ok.bind (finish_ok hS hI hbN hlive hi ha hn hl) (fun st' hst' => Ok.pure ⟨fun h => by simp at h, fun _ => hst'⟩)

/-- What is known about the tables and parameters in the second loop. -/
structure CtxB (g : Cfg) (z n : ℕ) (primes : Vec ℕ) (pi : PiTable) : Prop where
  hP : PrimePrefix primes n
  hn : ∀ m, m ≤ pi.max → m ≤ g.y → π m ≤ n
  hpi : pi.Valid
  hz : ∀ b, g.S < b → z / prm b ≤ pi.max
  hK : z = g.K

/-- The leaves of `b > S` in an interval. -/
theorem mem_Lv_B {b low high q : ℕ} (hg : g.Good) (hb1 : 1 ≤ b) (hbS : g.S < b) (hc : g.c < b) (hbpi : b ≤ π g.y) (hl : 1 ≤ low)
    (hlh : low < high) :
    q ∈ g.Lv b low high ↔ (q.Prime ∧ q ≤ min (min (g.x / prm b / low) g.y) (g.K / prm b) ∧
      max (min (g.x / prm b / high) g.y) (max (g.y / prm b) (prm b)) < q) := by
  have hp := prm_pos b
  rw [mem_Lv, mem_H]
  have hyp : g.y < q * prm b ↔ g.y / prm b < q := (Nat.div_lt_iff_lt_mul hp).symm
  have hKp : q * prm b ≤ g.K ↔ q ≤ g.K / prm b := (Nat.le_div_iff_mul_le hp).symm
  constructor
  · rintro ⟨⟨h0, h1⟩, h8, h9⟩
    obtain ⟨h2, h3, -, -⟩ := leaf_gt h0
    have hpr := leaf_prime' hg h0 hbS
    have hq := hpr.pos
    unfold specialLeaves at h0
    simp only [Finset.mem_filter, Finset.mem_product, Finset.mem_Icc] at h0
    have h5 := h0.2.1
    rw [hyp] at h5
    rw [hKp] at h1
    rw [le_xn_iff hq hl] at h8
    rw [xn_lt_iff hq (by omega)] at h9
    refine ⟨hpr, le_min (le_min h8 h3) (by omega), max_lt (lt_of_le_of_lt (min_le_left _ _) h9) (max_lt h5 h2)⟩
  · rintro ⟨h1, h2, h3⟩
    have hq := h1.pos
    rw [le_min_iff, le_min_iff] at h2
    rw [max_lt_iff, max_lt_iff] at h3
    refine ⟨⟨?_, Or.inr (hKp.2 h2.2)⟩, ?_, ?_⟩
    · unfold specialLeaves
      simp only [Finset.mem_filter, Finset.mem_product, Finset.mem_Icc]
      refine ⟨⟨⟨hc, hbpi⟩, hq, h2.1.2⟩, hyp.2 h3.2.1, h1.prime.squarefree, ?_⟩
      rw [rough_iff_prime_lt hb1]
      intro r hr hd
      rw [(Nat.prime_dvd_prime_iff_eq hr h1).1 hd]
      exact h3.2.2
    · rw [le_xn_iff hq hl]; exact h2.1.1
    · rw [xn_lt_iff hq (by omega)]
      have h4 := h3.1
      rw [min_lt_iff] at h4
      rcases h4 with h4 | h4
      · exact h4
      · exact absurd h2.1.2 (not_le.2 h4)

theorem rd_zero_or {primes : Vec ℕ} {n l : ℕ} (hP : PrimePrefix primes n) (hl : l ≤ n) :
    primes.rd l = .ok (if l = 0 then 0 else prm l) := by
  by_cases h : l = 0
  · subst h
    rw [Vec.rd_ok (by have := hP.1; omega), hP.2.1, if_pos rfl]
  · rw [if_neg h, hP.rd (by omega) hl]

theorem bodyB_ok {few : Bool} {L0 low high Sz N b n z : ℕ} {st : St R} {primes : Vec ℕ} {pi : PiTable}
    (hS : Seg S g L0 low high Sz) (hC : CtxB g z n primes pi) (hN : N ≤ n + 1)
    (hI : Inv S g few L0 low high Sz N b st) (hbN : b < N) (hc : g.c < b) (hbS : g.S < b) (hpy : prm b ≤ g.y) :
    Ok (bodyB few g.x g.y z primes pi low high b st) (fun r =>
      (r.1 = true → ¬ g.Live low b ∧ Inv S g few L0 low high Sz N b r.2) ∧
      (r.1 = false → Inv S g few L0 low high Sz N (b + 1) r.2)) := by
  have hp := prm_pos b
  have hy := hS.y63
  have hlt := hS.lt
  have hL1 : 1 ≤ low := by have := hS.L01; have := hS.hL; omega
  have h62 := hS.b62
  have hb1 : 1 ≤ b := by omega
  have hbpi : b ≤ π g.y := (prm_le_iff_le_pi hb1).1 hpy
  unfold bodyB
  rw [hC.hP.rd (by omega) (by omega)]
  simp only [ok_bind]
  rw [cdiv_ok hp]
  simp only [ok_bind]
  rw [fastDivWide_ok _ _ _ (by omega) (by show low < 2 ^ 64; omega)]
  simp only [ok_bind]
  rw [fastDivWide_ok _ _ _ (by omega) (by show high < 2 ^ 64; omega)]
  simp only [ok_bind]
  rw [cdiv_ok hp]
  simp only [ok_bind]
  have hup_le : min (min (g.x / prm b / low) g.y) (z / prm b) ≤ pi.max := (min_le_right _ _).trans (hC.hz b hbS)
  rw [PiTable.at_ok hC.hpi hup_le]
  simp only [ok_bind]
  rw [cdiv_ok hp]
  simp only [ok_bind]
  have hln := hC.hn _ hup_le ((min_le_left _ _).trans (min_le_right _ _))
  rw [rd_zero_or hC.hP hln]
  simp only [ok_bind]
  have hmem := fun q => mem_Lv_B (q := q) hS.good hb1 hbS hc hbpi hL1 hlt
  rw [← hC.hK] at hmem
  set up := min (min (g.x / prm b / low) g.y) (z / prm b) with hup
  set lo := max (min (g.x / prm b / high) g.y) (max (g.y / prm b) (prm b)) with hlo
  have hlop : prm b ≤ lo := (le_max_right _ _).trans (le_max_right _ _)
  have hliveiff : g.Live low b ↔ b < π up := by
    unfold Live
    rw [if_neg (by omega), ← hC.hK]
    constructor
    · rintro ⟨-, -, q, h1, h2, h3, h4⟩
      have h5 : q ≤ up := le_min h3 ((Nat.le_div_iff_mul_le hp).2 h4)
      have h6 := pi_mono h5
      have h7 : π (prm b) < π q := by
        rw [pi_prm hb1]
        by_contra hcon
        push Not at hcon
        have := (prm_le_prm (i := π q) (j := b) (by omega))
        rw [prm_pi h1] at this
        omega
      rw [pi_prm hb1] at h7
      omega
    · intro h
      refine ⟨hc, hbpi, prm (π up), prm_prime _, prm_lt_prm (by omega) h, ?_, ?_⟩
      · have : prm (π up) ≤ up := (prm_le_iff_le_pi (by omega)).2 le_rfl
        exact this.trans (min_le_left _ _)
      · have : prm (π up) ≤ up := (prm_le_iff_le_pi (by omega)).2 le_rfl
        exact (Nat.le_div_iff_mul_le hp).1 (this.trans (min_le_right _ _))
  refine Ok.ite (fun hj => Ok.pure ⟨fun _ => ⟨?_, hI⟩, fun h => by simp at h⟩) (fun hj => ?_)
  · rw [hliveiff]
    intro hcon
    rw [if_neg (by omega)] at hj
    have := prm_lt_prm (i := b) (j := π up) (by omega) hcon
    omega
  have hlive : g.Live low b := by
    rw [hliveiff]
    by_contra hcon
    push Not at hcon
    apply hj
    split
    · omega
    · exact prm_le_prm (i := π up) (j := b) (by omega)
  have hbl : b < π up := hliveiff.1 hlive
  obtain ⟨s2z, s2a, muz, mua, phz, hi, ha, hs2, hmu, hn⟩ := hI.inv
  have hempty : (g.Lv b low high).filter (π up < π ·) = ∅ := by
    rw [Finset.filter_eq_empty_iff]
    intro q hq hcon
    have h1 := ((hmem q).1 hq).2.1
    have := pi_mono h1
    omega
  have hinit := LeafInv.init (g := g) (few := few) (low := low) (high := high) (b := b) (phz := phz) (cur := prm (π up)) hs2 hmu hI.msz
  refine Ok.bind (P := fun ls => ∃ cur, LeafInv S g few low high N b st s2z s2a muz mua phz cur (g.Lv b low high) ls) ?_ ?_
  · refine loop_ok (fun (s : ℕ × LeafSt R) => b ≤ s.1 ∧ s.1 ≤ π up ∧
        LeafInv S g few low high N b st s2z s2a muz mua phz (prm s.1) ((g.Lv b low high).filter (s.1 < π ·)) s.2)
      (fun s => s.1) _ ⟨hbl.le, le_rfl, by rw [hempty]; exact hinit⟩ (by dsimp only; omega) ?_
    rintro ⟨l, ls⟩ ⟨h1, h2, h3⟩
    dsimp only at h1 h2 h3 ⊢
    rw [hC.hP.rd (by omega) (by omega)]
    simp only [ok_bind]
    refine Ok.ite (fun hcd => ?_) (fun hcd => ?_)
    · have hbl' : b < l := by
        by_contra hcon
        have : l = b := by omega
        subst this
        omega
      have hq : prm l ∈ g.Lv b low high := by
        rw [hmem]
        exact ⟨prm_prime l, (prm_le_iff_le_pi (by omega)).2 h2, hcd⟩
      have hpl : π (prm l) = l := pi_prm (by omega)
      have hset : (g.Lv b low high).filter (l - 1 < π ·) = insert (prm l) ((g.Lv b low high).filter (l < π ·)) := by
        ext q
        simp only [Finset.mem_filter, Finset.mem_insert]
        constructor
        · rintro ⟨a1, a2⟩
          by_cases hql : π q = l
          · left
            rw [← hql, prm_pi ((hmem q).1 a1).1]
          · right; exact ⟨a1, by omega⟩
        · rintro (rfl | ⟨a1, a2⟩)
          · exact ⟨hq, by omega⟩
          · exact ⟨a1, by omega⟩
      refine Ok.bind (leafB_ok hS hI (Live.b5 hS.c4 hlive) hbN hi (by have := hn b hbN; rwa [hS_self] at this) h3 hq ?_ le_rfl (prm_prime l) hpy) (fun ls' hls' => Ok.pure ⟨⟨?_, ?_, ?_⟩, ?_⟩)
      · simp only [Finset.mem_filter, hpl]; omega
      · show b ≤ l - 1; omega
      · show l - 1 ≤ π up; omega
      · dsimp only
        rw [hset]
        have := prm_le_prm (i := l - 1) (j := l) (by omega)
        exact ⟨hls'.start, fun m a1 a2 => hls'.cur m a1 (by omega), hls'.s2, hls'.msz, hls'.muE⟩
      · show l - 1 < l; omega
    · refine Ok.pure ⟨prm l, ?_⟩
      have hset : (g.Lv b low high).filter (l < π ·) = g.Lv b low high := by
        rw [Finset.filter_eq_self]
        intro q hq
        have h4 := ((hmem q).1 hq)
        by_contra hcon
        push Not at hcon
        have := prm_le_prm (i := π q) (j := l) hcon
        rw [prm_pi h4.1] at this
        omega
      rw [hset] at h3
      exact h3
  · rintro ls ⟨cur, hl⟩
    refine Ok.bind (finish_ok hS hI hbN hlive hi ha hn hl) (fun st' hst' => Ok.pure ⟨fun h => by simp at h, fun _ => hst'⟩)

/-- The state of a thread between two segments; everything below `low` is processed. -/
structure InvT (S : BRes R) (g : Cfg) (L0 low Sz N : ℕ) (st : St R) : Prop where
  szE : st.sieve.size = Sz
  ssz : Sz ≤ 128 * st.sieve.sieve.size
  wsz : st.wheel.size = N
  psz : st.phi.size = N
  msz : st.muSum.size = N
  wh : ∀ j, j < N → g.Live low j → ∃ i, Wheel.At (prm j) i (st.wheel.get j) ∧ Wheel.First (prm j) low i
  inv : ∃ s2z s2a muz mua phz, SegInv coef g L0 (fun _ => low) N s2z muz phz ∧
    SegInv acoef g L0 (fun _ => low) N s2a mua phz ∧ S.Rep st.s2 s2z s2a ∧
    (∀ j, j < N → S.Rep (st.muSum.get j) (muz j) (mua j)) ∧ ∀ j, j < N → Near S.mod (st.phi.get j) (phz j) (Tot L0 low)

/-- What the leaves of a segment depend on. -/
structure Ctx (g : Cfg) (n N : ℕ) (z : ℕ) (primes factors : Vec ℕ) (pi : PiTable) : Prop where
  hF : FT g factors
  hB : CtxB g z n primes pi
  hN : N ≤ n + 1
  hS : ∀ b, g.c < b → b ≤ g.S → prm b * prm b ≤ g.y
  hNy : ∀ b, g.c < b → b < N → prm b ≤ g.y
  cN : g.c < N

theorem SegInv.start' {k : ℕ → ℕ → ℤ} {L0 low high Sz N : ℕ} {s2 : ℤ} {muS phi : ℕ → ℤ} (hS : Seg S g L0 low high Sz)
    (hi : SegInv k g L0 (fun _ => low) N s2 muS phi) : SegInv k g L0 (PS.hS (g.c + 1) low high) N s2 muS phi := by
  have hlt := hS.lt
  have hhS : ∀ j, g.c < j → PS.hS (g.c + 1) low high j = low := by
    intro j hj; unfold PS.hS; rw [if_neg (by omega)]
  refine ⟨?_, ?_, ?_, hi.nonneg, ?_⟩
  · rw [hi.s2E]
    apply Finset.sum_congr rfl
    intro j hj
    rw [Finset.mem_Ioc] at hj
    rw [hhS j hj.1]
  · intro j hjN
    have hL := hS.L01
    by_cases hj : g.c < j
    · rw [hhS j hj]; exact hi.muE j hjN
    · rw [hi.muE j hjN, Mu_dead hS.good hL (fun h => hj h.1), Mu_dead hS.good hL (fun h => hj h.1)]
  · intro j hjN hl
    rw [hhS j hl.1] at hl ⊢
    exact hi.phiE j hjN hl
  · intro j hjN
    refine (hi.le j hjN).trans (Tot_mono ?_)
    unfold PS.hS
    split <;> omega

theorem segment_start {few : Bool} {L0 low high Sz N : ℕ} {st : St R} {s' : BitSieve} {slh : ℤ} {tree : BIT}
    (hS : Seg S g L0 low high Sz) (hI : InvT S g L0 low Sz N st)
    (h1 : s'.size = st.sieve.size)
    (h2 : s'.sieve.size = st.sieve.sieve.size)
    (h3 : ∀ k, k < 64 * st.sieve.sieve.size → (bit s' k = true ↔ ∀ j, 2 ≤ j → j ≤ g.c → ¬ BitSieve.primes.get j ∣ low + 2 * k))
    (h4 : SumOk S few low high Sz (⟨s', st.wheel, st.phi, st.muSum, st.s2, tree, slh⟩ : St R)) :
    Inv S g few L0 low high Sz N (g.c + 1) ⟨s', st.wheel, st.phi, st.muSum, st.s2, tree, slh⟩ := by
  have hlt := hS.lt
  have hsz := hS.sz
  have hodd := hS.odd
  have hc10 := hS.c10
  have hssz := hI.ssz
  have hhS : ∀ j, g.c < j → PS.hS (g.c + 1) low high j = low := by
    intro j hj; unfold PS.hS; rw [if_neg (by omega)]
  refine ⟨⟨hodd, ?_, ?_⟩, h1.trans hI.szE, by dsimp only; rw [h2]; exact hI.ssz, hI.wsz, hI.psz, hI.msz, ?_, h4, ?_⟩
  · dsimp only; rw [h2]; omega
  · intro k hk
    rw [h3 k (by omega), Nat.add_sub_cancel]
    constructor
    · intro h j hj1 hj2
      rcases Nat.lt_or_ge j 2 with hj | hj
      · have : j = 1 := by omega
        subst this
        rw [prm_one]; omega
      · rw [← primes_prm hj1 (by omega)]
        exact h j hj hj2
    · intro h j hj1 hj2
      rw [primes_prm (by omega) (by omega)]
      exact h j (by omega) hj2
  · intro j hj hl
    rw [hhS j hl.1] at hl ⊢
    exact hI.wh j hj hl
  · obtain ⟨s2z, s2a, muz, mua, phz, hi, ha, hs2, hmu, hn⟩ := hI.inv
    refine ⟨s2z, s2a, muz, mua, phz, SegInv.start' hS hi, SegInv.start' hS ha, hs2, hmu, fun j hj => (hn j hj).mono (Tot_mono ?_)⟩
    unfold PS.hS
    split <;> omega

theorem segment_end {few : Bool} {L0 low high Sz N b : ℕ} {st : St R}
    (hS : Seg S g L0 low high Sz) (hI : Inv S g few L0 low high Sz N b st)
    (hd : ∀ j, b ≤ j → ¬ g.Live low j) (hN : ∀ j, N ≤ j → ¬ g.Live low j) : InvT S g L0 high Sz N st := by
  have hlt := hS.lt
  have hL1 : 1 ≤ low := by have := hS.L01; have := hS.hL; omega
  refine ⟨hI.szE, hI.ssz, hI.wsz, hI.psz, hI.msz, ?_, ?_⟩
  · intro j hj hl
    have hjb : j < b := by
      by_contra hcon
      exact hd j (by omega) (hl.anti hL1 hlt.le)
    have := hI.wh j hj
    unfold PS.hS at this
    rw [if_pos hjb] at this
    exact this hl
  · obtain ⟨s2z, s2a, muz, mua, phz, hi, ha, hs2, hmu, hn⟩ := hI.inv
    have e1 : ∀ j, j < b → PS.hS b low high j = high := by
      intro j hj; unfold PS.hS; rw [if_pos hj]
    have e2 : ∀ j, b ≤ j → PS.hS b low high j = low := by
      intro j hj; unfold PS.hS; rw [if_neg (by omega)]
    refine ⟨s2z, s2a, muz, mua, phz, hi.skip hS.good e1 e2 hS.L01 hS.hL hlt.le (fun j h _ => hd j h) (b := b) (low := low) hN,
      ha.skip hS.good e1 e2 hS.L01 hS.hL hlt.le (fun j h _ => hd j h) (b := b) (low := low) hN, hs2, hmu, fun j hj => (hn j hj).mono (Tot_mono ?_)⟩
    unfold PS.hS
    split <;> omega

theorem segment_ok {few : Bool} {L0 low high Sz N n z maxB : ℕ} {st : St R} {primes factors : Vec ℕ} {pi : PiTable}
    (hS : Seg S g L0 low high Sz) (hC : Ctx g n N z primes factors pi) (hmB : N = maxB + 1)
    (hdead : ∀ j, N ≤ j → ¬ g.Live low j) (hI : InvT S g L0 low Sz N st) :
    Ok (segment few g.x g.y z g.c primes factors pi g.S maxB low high st) (InvT S g L0 high Sz N) := by
  have hlt := hS.lt
  have hcN := hC.cN
  have hsz := hS.sz
  have hssz := hI.ssz
  have h62 := hS.b62
  unfold segment
  refine Ok.bind (preSieve_ok (by omega) hS.c10 hS.odd) (fun s' hs' => ?_)
  obtain ⟨h1, h2, h3⟩ := hs'
  refine Ok.bind (P := fun st' => Inv S g few L0 low high Sz N (g.c + 1) st') ?_ (fun st0 hst0 => ?_)
  · refine Ok.ite (fun hfew => ?_) (fun hfew => ?_)
    · rw [csub_ok (by omega)]
      simp only [ok_bind]
      have hsv : SvOk low high (g.c + 1) s' := (segment_start (few := true) (tree := st.tree)
        (slh := (bsum s'.sieve low 0 ((high - low + 1) / 2) : ℕ)) hS hI h1 h2 h3 ⟨fun _ => Near.refl Tot_nonneg, fun h => by cases h⟩).sv
      have hft : Wraps S.mod s'.sieve low ((high - low + 1) / 2) := by
        rcases hS.w58 with h | h | h
        · exact Or.inl h
        · exact hS.wraps hsv (by omega)
        · exact Or.inr (fits_of_lt (by omega))
      obtain ⟨slh, hslh, l1, l2⟩ := BitSieve.sum_near (b := s') (low := low) (start := 0) (stop := high - 1 - low) (by omega) (by omega) (hft.anti (by omega))
      rw [hslh]
      simp only [ok_bind]
      refine Ok.pure (segment_start hS hI h1 h2 h3 ⟨fun _ => ?_, fun h => absurd hfew (by simp [h])⟩)
      rw [show (high - 1 - low) / 2 + 1 = (high - low + 1) / 2 by omega, show (0 + 1) / 2 = 0 by norm_num] at l1 l2
      have b3 := bsum_le_Tot (v := s'.sieve) (low := low) (t := high - low)
      rw [show low + (high - low) = high by omega] at b3
      exact ⟨l2, by dsimp only; omega, by dsimp only; omega⟩
    · refine Ok.bind (BIT.init_ok (b := fun i => bit s' i) (by rw [h1, hI.szE]; have := hS.sz62; omega) (fun i hi => at_ok (by rw [h1, hI.szE] at hi; omega))) (fun t ht => ?_)
      refine Ok.pure (segment_start (st := st) hS hI h1 h2 h3 ⟨fun h => absurd h hfew, fun _ => ?_⟩)
      rw [h1, hI.szE] at ht
      exact ⟨by have := hS.sz62; omega, ht⟩
  have hdown : ∀ b, g.c < b → ¬ g.Live low b → ∀ j, b ≤ j → ¬ g.Live low j := fun b hb h j hj hl => h (hl.down hb hj)
  refine Ok.bind (forBrk_ok (fun b st => Inv S g few L0 low high Sz N b st)
    (fun b st => ¬ g.Live low b ∧ Inv S g few L0 low high Sz N b st) hst0 (fun b st h4 h5 h6 => ?_)) ?_
  · have hb : b ≤ g.S := by omega
    exact bodyA_ok hS hC.hF hC.hB.hP hC.hN h6 (by omega) (by omega) hb (hC.hS b (by omega) hb)
  rintro ⟨jump, b, st1⟩ ⟨hj1, hj2⟩
  dsimp only at hj1 hj2 ⊢
  refine Ok.ite (fun hj => ?_) (fun hj => ?_)
  · obtain ⟨a1, a2, a3, a4⟩ := hj1 hj
    exact Ok.pure (segment_end hS a4 (hdown b (by omega) a3) hdead)
  · obtain ⟨a1, a2⟩ := hj2 (by simpa using hj)
    refine Ok.bind (forBrk_ok (fun b st => Inv S g few L0 low high Sz N b st)
      (fun b st => ¬ g.Live low b ∧ Inv S g few L0 low high Sz N b st) a2 (fun b' st h4 h5 h6 => ?_)) ?_
    · exact bodyB_ok hS hC.hB hC.hN h6 (by omega) (by omega) (by omega) (hC.hNy b' (by omega) (by omega))
    rintro ⟨jump', b', st2⟩ ⟨hj3, hj4⟩
    dsimp only at hj3 hj4 ⊢
    cases jump' with
    | true =>
      obtain ⟨a3, a4, a5, a6⟩ := hj3 rfl
      exact Ok.pure (segment_end hS a6 (hdown b' (by omega) a5) hdead)
    | false =>
      obtain ⟨a3, a4⟩ := hj4 rfl
      refine Ok.pure (segment_end hS a4 (fun j hj => hdead j ?_) hdead)
      omega

/-- What a thread has computed when it returns: everything about `[L0, hi)`. -/
structure TPost (S : BRes R) (g : Cfg) (L0 hi M : ℕ) (r : ThreadRes R) : Prop where
  msz : r.muSum.size = r.phi.size
  size : r.phi.size ≤ M
  dead : ∀ j, r.phi.size ≤ j → ¬ g.Live L0 j
  inv : ∃ s2z s2a muz mua phz, SegInv coef g L0 (fun _ => hi) r.phi.size s2z muz phz ∧
    SegInv acoef g L0 (fun _ => hi) r.phi.size s2a mua phz ∧ S.Rep r.s2 s2z s2a ∧
    (∀ j, j < r.phi.size → S.Rep (r.muSum.get j) (muz j) (mua j)) ∧ ∀ j, j < r.phi.size → Near S.mod (r.phi.get j) (phz j) (Tot L0 hi)

/-- Parameters of the threads. -/
structure TCtx (g : Cfg) (z n : ℕ) (primes factors : Vec ℕ) (pi : PiTable) : Prop where
  good : g.Good
  c4 : 4 ≤ g.c ∨ π g.y ≤ g.c
  c10 : g.c < 10
  y63 : g.y < 2 ^ 63
  hSy : g.S = π (Nat.sqrt g.y)
  hK : g.K = z
  yz : g.y ≤ z
  hF : FT g factors
  hB : CtxB g z n primes pi
  sqrty : Nat.sqrt g.y ≤ pi.max
  sqrtz : Nat.sqrt z ≤ pi.max

theorem thread_ok {few : ℕ → ℕ → Bool} {z n ss spt i low limit : ℕ} {primes factors : Vec ℕ} {pi : PiTable}
    (hT : TCtx g z n primes factors pi) (hss : 0 < ss) (hsse : ss % 2 = 0) (hlow : low % 2 = 1)
    (hlim : limit + 128 < 2 ^ 62) (hlim9 : S.mod ∣ 2 ^ 64 ∨ limit + 128 < 2 ^ 59) (hlim' : S.mod ∣ 2 ^ 64 ∨ 4 ≤ g.c ∨ limit + 128 < 2 ^ 58)
    (hD : low + ss * spt * i + ss * spt < 2 ^ 62) (hss32 : ss < 2 ^ 32) (hz : z < 2 ^ 62) :
    Ok (thread R few g.x g.y z g.c primes factors pi ss spt i low limit)
      (TPost S g (low + ss * spt * i) (max (low + ss * spt * i) (min (low + ss * spt * i + ss * spt) limit)) (π (Nat.sqrt z) + 1)) := by
  unfold thread
  rw [interval_ok (by omega), ok_bind]
  dsimp only
  have hodd : (low + ss * spt * i) % 2 = 1 := by
    obtain ⟨k, rfl⟩ : ∃ k, ss = 2 * k := ⟨ss / 2, by omega⟩
    rw [show low + 2 * k * spt * i = low + 2 * (k * spt * i) by ring]
    omega
  generalize low + ss * spt * i = L0 at *
  generalize hli : min (L0 + ss * spt) limit = lim
  have hL1 : 1 ≤ L0 := by omega
  rw [cdiv_ok hL1]
  simp only [ok_bind]
  have hmin : min (Nat.sqrt (g.x / L0)) (min (Nat.sqrt z) g.y) ≤ pi.max :=
    ((min_le_right _ _).trans (min_le_left _ _)).trans hT.sqrtz
  rw [PiTable.at_ok hT.hB.hpi hmin]
  simp only [ok_bind]
  rw [PiTable.at_ok hT.hB.hpi hT.sqrty]
  simp only [ok_bind]
  rw [← hT.hSy]
  set mx := min (Nat.sqrt (g.x / L0)) (min (Nat.sqrt z) g.y) with hmx
  have hSsq : ∀ b, 1 ≤ b → b ≤ g.S → prm b * prm b ≤ g.y := by
    intro b hb1 hb
    rw [hT.hSy, ← prm_le_iff_le_pi hb1, Nat.le_sqrt] at hb
    exact hb
  have hdead0 : ∀ j, π mx + 1 ≤ j → ¬ g.Live L0 j := by
    intro j hj hl
    have hj1 : 1 ≤ j := by omega
    have : prm j ≤ mx := by
      refine le_min (Nat.le_sqrt.2 hl.sq_le) (le_min (Nat.le_sqrt.2 ?_) hl.lt_y.le)
      by_cases hjS : j ≤ g.S
      · exact (hSsq j hj1 hjS).trans hT.yz
      · obtain ⟨-, -, h4⟩ := hl
        rw [if_neg hjS] at h4
        obtain ⟨q, h5, h6, h7, h8⟩ := h4
        rw [← hT.hK]
        exact (Nat.mul_le_mul_right _ h6.le).trans h8
    have := (prm_le_iff_le_pi hj1).1 this
    omega
  have hmx29 : mx < 2 ^ 31 := by
    have : Nat.sqrt z < 2 ^ 31 := by rw [Nat.sqrt_lt']; omega
    exact lt_of_le_of_lt ((min_le_right _ _).trans (min_le_left _ _)) this
  have hp29 : ∀ j, 1 ≤ j → j < π mx + 1 → prm j < 2 ^ 31 := fun j h1 h2 =>
    lt_of_le_of_lt ((prm_le_iff_le_pi h1).2 (by omega)) hmx29
  have hsize : π mx + 1 ≤ π (Nat.sqrt z) + 1 := by
    have := pi_mono (show mx ≤ Nat.sqrt z from (min_le_right _ _).trans (min_le_left _ _))
    omega
  refine Ok.ite (fun hc => ?_) (fun hc => ?_)
  · refine Ok.pure ⟨rfl, by show 0 ≤ _; omega, ?_, 0, 0, fun _ => 0, fun _ => 0, fun j => (⟨#[]⟩ : Vec ℤ).get j, ?_, ?_, S.rep_zero, fun j hj => absurd hj (by show ¬ j < 0; omega),
      fun j hj => absurd hj (by show ¬ j < 0; omega)⟩
    · intro j hj hl
      exact hdead0 j (by have := hl.1; omega) hl
    · have hall : ∀ j, ¬ g.Live L0 j := fun j hl => hdead0 j (by have := hl.1; omega) hl
      have h0 := SegInv.init (k := coef) (g := g) (L0 := L0) (N := 0) (muS := fun _ => 0) (phi := fun j => (⟨#[]⟩ : Vec ℤ).get j)
        (fun _ _ => rfl) (fun j hj => absurd hj (by omega))
      exact h0.skip hT.good (b := 0) (low := L0) (fun j hj => absurd hj (by omega)) (fun _ _ => rfl) hL1 le_rfl (le_max_left _ _)
        (fun j _ _ => hall j) (fun j _ => hall j)
    · have hall : ∀ j, ¬ g.Live L0 j := fun j hl => hdead0 j (by have := hl.1; omega) hl
      have h0 := SegInv.init (k := acoef) (g := g) (L0 := L0) (N := 0) (muS := fun _ => 0) (phi := fun j => (⟨#[]⟩ : Vec ℤ).get j)
        (fun _ _ => rfl) (fun j hj => absurd hj (by omega))
      exact h0.skip hT.good (b := 0) (low := L0) (fun j hj => absurd hj (by omega)) (fun _ _ => rfl) hL1 le_rfl (le_max_left _ _)
        (fun j _ _ => hall j) (fun j _ => hall j)
  have hmxn := hT.hB.hn mx hmin ((min_le_right _ _).trans (min_le_right _ _))
  have hC : Ctx g n (π mx + 1) z primes factors pi := by
    refine ⟨hT.hF, hT.hB, by omega, ?_, ?_, by omega⟩
    · exact fun b h1 h2 => hSsq b (by omega) h2
    · intro b h1 hb
      have := (prm_le_iff_le_pi (i := b) (n := mx) (by omega)).2 (by omega)
      exact this.trans ((min_le_right _ _).trans (min_le_right _ _))
  refine Ok.bind (C28_constructor ss) (fun sv hsv => ?_)
  refine Ok.bind (Wheel.build_ok (size := π mx + 1) (low := L0) hT.hB.hP (by omega) (by omega)
    (fun b h1 h2 => by have := hp29 b h1 h2; omega)) (fun w hw => ?_)
  refine Ok.bind (P := InvT S g L0 (max L0 lim) ss (π mx + 1)) ?_ (fun st hst => Ok.pure ⟨?_, ?_, ?_, ?_⟩)
  · refine forStep_ok (fun i st => i % 2 = 1 ∧ InvT S g L0 (min i (max L0 lim)) ss (π mx + 1) st) _ hss ⟨hodd, ?_⟩ ?_ ?_
    · rw [min_eq_left (le_max_left _ _)]
      refine ⟨hsv.1, by rw [← hsv.1]; exact hsv.2, hw.1, by simp, by simp, ?_, ?_⟩
      · intro j hj hl
        exact hw.2 j (by have := hl.1; omega) hj
      · refine ⟨0, 0, fun _ => 0, fun _ => 0, fun _ => 0, SegInv.init (fun _ _ => rfl) (fun j hj => rfl), SegInv.init (fun _ _ => rfl) (fun j hj => rfl),
          S.rep_zero, fun j hj => ?_, fun j hj => ?_⟩
        · dsimp only; rw [Vec.get_mk' _ _ _ hj]; exact S.rep_zero
        · dsimp only; rw [Vec.get_mk' _ _ _ hj]; exact Near.refl Tot_nonneg
    · rintro i st h1 h2 ⟨h3, h4⟩
      rw [min_eq_left (by omega)] at h4
      rw [fit_ok (by omega), ok_bind]
      refine (segment_ok (few := few i (min (i + ss) lim)) (high := min (i + ss) lim) (Sz := ss) ?_ hC rfl ?_ h4).mono (fun st' h => ⟨by omega, ?_⟩)
      · refine ⟨hT.good, hT.c4, hT.c10, hL1, h1, by omega, h3, by omega, hsse, by omega, hlim9.imp id (by omega), hlim'.imp id (fun h => h.imp id (by omega)), hT.y63, fun b hb => ?_, by omega⟩
        have hb0 := hb.anti hL1 h1
        have hb1 := hb0.1
        have hb2 : b < π mx + 1 := by
          by_contra hcon
          exact hdead0 b (by omega) hb0
        have := hp29 b (by omega) hb2
        omega
      · intro j hj hl
        exact hdead0 j hj (hl.anti hL1 h1)
      · rw [max_eq_right (by omega)]; exact h
    · rintro i st h1 h2 ⟨h3, h4⟩
      rwa [min_eq_right (by omega)] at h4
  · show st.muSum.size = st.phi.size
    rw [hst.psz, hst.msz]
  · show st.phi.size ≤ _
    rw [hst.psz]; exact hsize
  · show ∀ j, st.phi.size ≤ j → _
    rw [hst.psz]; exact hdead0
  · dsimp only
    rw [hst.psz]
    exact hst.inv

end S2Hard
end PS
