import Verif.Proof.LmoAcc
import Verif.Proof.Generate

/-!
# pi_lmo2, pi_lmo3, pi_lmo4: the sieves of single bytes
-/

namespace PS
open Finset Cfg
open scoped Classical
open Res
local notation "π" => Nat.primeCounting

namespace Cfg
variable {g : Cfg}

/-- Start of the loop over `b`. -/
theorem SegInv.start (hg : g.Good) {L0 low high N : ℕ} {s2 : ℤ} {muS phi : ℕ → ℤ} (hi : SegInv coef g L0 (fun _ => low) N s2 muS phi)
    (h01 : 1 ≤ L0) (hl : low ≤ high) : SegInv coef g L0 (hS (g.c + 1) low high) N s2 muS phi := by
  have hhS : ∀ j, g.c < j → hS (g.c + 1) low high j = low := by
    intro j hj; unfold hS; rw [if_neg (by omega)]
  refine ⟨?_, ?_, ?_, hi.nonneg, ?_⟩
  · rw [hi.s2E]
    apply Finset.sum_congr rfl
    intro j hj
    rw [Finset.mem_Ioc] at hj
    rw [hhS j hj.1]
  · intro j hjN
    by_cases hj : g.c < j
    · rw [hhS j hj]; exact hi.muE j hjN
    · rw [hi.muE j hjN, Mu_dead hg h01 (fun h => hj h.1), Mu_dead hg h01 (fun h => hj h.1)]
  · intro j hjN hlv
    rw [hhS j hlv.1] at hlv ⊢
    exact hi.phiE j hjN hlv
  · intro j hjN
    refine (hi.le j hjN).trans (Tot_mono ?_)
    unfold hS
    split <;> omega

end Cfg

namespace Lmo

set_option linter.unusedSectionVars false

variable {R : Type} [Res R] {S : AccSpec R} {g : Cfg}

/-- The parameters of the algorithms; all special leaves are considered. -/
def cfg (x y c S : ℕ) : Cfg := ⟨x, y, c, S, y * y⟩

theorem cfg_H {x y c S : ℕ} : (cfg x y c S).H = specialLeaves y c := by
  refine Finset.filter_eq_self.2 ?_
  rintro ⟨b, m⟩ h
  right
  have := leaf_gt (g := cfg x y c S) h
  have hy : prm b ≤ y := by have := this.2.1; change m ≤ y at this; omega
  exact Nat.mul_le_mul this.2.1 hy

theorem cfg_total {x y c S : ℕ} (hg : (cfg x y c S).Good) :
    ∑ b ∈ Ioc c (π y), (cfg x y c S).A coef 1 b 1 (x / y + 1) = S2Sum x y c := by
  have := total (g := cfg x y c S) hg (limit := x / y + 1) (Nat.lt_succ_self _)
  rw [cfg_H] at this
  exact this

/-- The leaves found by the loop over `m` in all versions with segments. -/
theorem range_A {b low high : ℕ} (hb1 : 1 ≤ b) (hbS : b ≤ g.S) (hc : g.c < b) (hb : b ≤ π g.y) (hl : 1 ≤ low)
    (hlh : low < high) :
    Range g b low high (max (g.x / (prm b * high)) (g.y / prm b)) (min (g.x / (prm b * low)) g.y) := by
  have hp := prm_pos b
  refine ⟨fun m => ?_, min_le_right _ _, le_max_right _ _, (prm_le_iff_le_pi hb1).2 hb⟩
  rw [mem_Lv, mem_H, ← S2Hard.rough_iff_prime_lt hb1, ← Nat.div_div_eq_div_mul, ← Nat.div_div_eq_div_mul]
  unfold specialLeaves
  simp only [Finset.mem_filter, Finset.mem_product, Finset.mem_Icc]
  have hyp : g.y < m * prm b ↔ g.y / prm b < m := (Nat.div_lt_iff_lt_mul hp).symm
  rw [hyp]
  constructor
  · rintro ⟨⟨⟨⟨⟨h1, h2⟩, h3, h4⟩, h5, h6, h7⟩, -⟩, h8, h9⟩
    rw [le_xn_iff (by omega) hl] at h8
    rw [xn_lt_iff (by omega) (by omega)] at h9
    exact ⟨max_lt h9 h5, le_min h8 h4, h6, h7⟩
  · rintro ⟨h1, h2, h3, h4⟩
    have hm1 : 1 ≤ m := lt_of_le_of_lt (Nat.zero_le _) h1
    rw [max_lt_iff] at h1
    rw [le_min_iff] at h2
    refine ⟨⟨⟨⟨⟨hc, hb⟩, hm1, h2.2⟩, h1.2, h3, h4⟩, Or.inl hbS⟩, ?_, ?_⟩
    · rw [le_xn_iff hm1 hl]; exact h2.1
    · rw [xn_lt_iff hm1 (by omega)]; exact h1.1

/-- The `int64_t` variables fit and `phi` fits in `w` bits. -/
structure W63 (g : Cfg) (w limit : ℕ) : Prop where
  x63 : g.x < 2 ^ 63
  lim : limit ≤ g.x / g.y + 1
  st : limit + 2 * g.y + 2 < 2 ^ 63
  ll : limit * limit < 2 ^ w

theorem W63.yy {w limit : ℕ} (h : W63 g w limit) (hg : g.Good) : g.y * g.y < 2 ^ 63 := lt_of_le_of_lt hg.yx h.x63

theorem W63.mul {w limit b n : ℕ} (h : W63 g w limit) (hg : g.Good) (hb : prm b < g.y) (hn : n ≤ limit) :
    prm b * n < 2 ^ 63 := by
  have h1 := h.lim
  have h2 : g.y ≤ g.x / g.y := (Nat.le_div_iff_mul_le hg.y1).2 hg.yx
  have h3 : g.x / g.y * g.y ≤ g.x := Nat.div_mul_le_self _ _
  have h4 : (prm b + 1) * (g.x / g.y) ≤ g.x := le_trans (Nat.mul_le_mul_right _ hb) (by rw [Nat.mul_comm]; exact h3)
  have h5 : prm b * n ≤ prm b * (g.x / g.y + 1) := Nat.mul_le_mul_left _ (by omega)
  have h6 := h.x63
  rw [Nat.add_mul] at h4
  rw [Nat.mul_add] at h5
  omega

theorem prm_lt_y {b : ℕ} (hb1 : 1 ≤ b) (hb : b < π g.y) : prm b < g.y := by
  have h1 := prm_lt_prm (i := b) (j := π g.y) hb1 hb
  have h2 : prm (π g.y) ≤ g.y := (prm_le_iff_le_pi (by omega)).2 le_rfl
  omega

/-- `k` is the first number from `h` on that is congruent to `p`. -/
def Next (p step h k : ℕ) : Prop :=
  h ≤ k ∧ k % step = p % step ∧ ∀ n, h ≤ n → n < k → n % step ≠ p % step

/-- The bytes of the numbers in `[low, high)`; the number `n` has index `n - off`. -/
structure SvC (off low high b : ℕ) (s : Vec Bool) : Prop where
  size : high - off ≤ s.size
  hoff : off ≤ low
  bits : ∀ n, low ≤ n → n < high → (s.get (n - off) = true ↔ Rough (b - 1) n)

theorem SvC.svR {off low high b : ℕ} {s : Vec Bool} (h : SvC off low high b s) : SvR 1 off low high b s.rd := by
  refine ⟨fun i _ h1 h2 => ⟨s.get i, ?_, ?_⟩, fun i hi => by omega, Or.inl rfl⟩
  · exact Vec.rd_ok (by have := h.size; omega)
  · have := h.bits (off + i) h1 h2
    rwa [Nat.add_sub_cancel_left] at this

theorem mod_ne_between {k n step : ℕ} (h1 : k < n) (h2 : n < k + step) : n % step ≠ k % step := by
  intro h
  have hd : step ∣ n - k := (Nat.modEq_iff_dvd' h1.le).1 (Eq.symm h)
  have := Nat.le_of_dvd (by omega) hd
  omega

theorem crossC_ok {off low high step p k : ℕ} {s : Vec Bool} (hoff : off ≤ low) (hsz : high - off ≤ s.size) (hst : 0 < step)
    (hlh : low ≤ high) (h63 : high + step < 2 ^ 63) (hk : Next p step low k) :
    Ok (crossC off high step k s) (fun r => r.2.size = s.size ∧ Next p step high r.1 ∧
      ∀ n, low ≤ n → n < high → (r.2.get (n - off) = true ↔ s.get (n - off) = true ∧ n % step ≠ p % step)) := by
  unfold crossC
  refine loop_ok (fun (st : ℕ × Vec Bool) => Next p step low k ∧ low ≤ st.1 ∧ st.1 % step = p % step ∧ st.2.size = s.size ∧
      (∀ n, high ≤ n → n < st.1 → n % step ≠ p % step) ∧
      ∀ n, low ≤ n → n < high → (st.2.get (n - off) = true ↔ s.get (n - off) = true ∧ (n < st.1 → n % step ≠ p % step)))
    (fun st => high - st.1) _ ⟨hk, hk.1, hk.2.1, rfl, fun n h1 h2 => hk.2.2 n (by omega) h2, fun n h1 h2 => ?_⟩ (by omega) ?_
  · exact ⟨fun h => ⟨h, fun h3 => hk.2.2 n h1 h3⟩, fun h => h.1⟩
  · rintro ⟨k', s'⟩ ⟨-, h1, h2, h3, h4, h5⟩
    dsimp only at h1 h2 h3 h4 h5 ⊢
    refine Ok.ite (fun hc => ?_) (fun hc => ?_)
    · rw [csub_ok (by omega)]
      simp only [ok_bind]
      rw [Vec.wr_ok (by rw [h3]; omega)]
      simp only [ok_bind]
      rw [fit_ok (by omega), ok_bind]
      refine Ok.pure ⟨⟨hk, ?_, ?_, ?_, ?_, ?_⟩, ?_⟩
      · show low ≤ k' + step; omega
      · show (k' + step) % step = _
        rw [Nat.add_mod_right]; exact h2
      · dsimp only; rw [Vec.size_set]; exact h3
      · intro n h6 h7
        rw [← h2]
        exact mod_ne_between (by omega) h7
      · intro n h6 h7
        dsimp only
        rw [Vec.get_set]
        by_cases hn : n = k'
        · subst hn
          rw [if_pos ⟨rfl, by rw [h3]; omega⟩]
          constructor
          · intro h; simp at h
          · rintro ⟨-, h8⟩; exact absurd h2 (h8 (by omega))
        · rw [if_neg (by omega), h5 n h6 h7]
          refine and_congr_right (fun _ => ⟨fun h8 h9 => ?_, fun h8 h9 => h8 (by omega)⟩)
          rcases Nat.lt_or_ge n k' with h10 | h10
          · exact h8 h10
          · rw [← h2]; exact mod_ne_between (by omega) h9
      · show high - (k' + step) < high - k'; omega
    · refine Ok.pure ⟨h3, ⟨by omega, h2, h4⟩, fun n h6 h7 => ?_⟩
      rw [h5 n h6 h7]
      exact and_congr_right (fun _ => ⟨fun h8 => h8 (by omega), fun h8 _ => h8⟩)

/-- Crossing off all multiples. -/
theorem SvC.next_all {off low high b : ℕ} {s s' : Vec Bool} (h : SvC off low high b s) (hb : 1 ≤ b) (hsz : s'.size = s.size)
    (hs : ∀ n, low ≤ n → n < high → (s'.get (n - off) = true ↔ s.get (n - off) = true ∧ n % prm b ≠ prm b % prm b)) :
    SvC off low high (b + 1) s' := by
  refine ⟨by rw [hsz]; exact h.size, h.hoff, fun n h1 h2 => ?_⟩
  obtain ⟨b', rfl⟩ : ∃ b', b = b' + 1 := ⟨b - 1, by omega⟩
  rw [hs n h1 h2, h.bits n h1 h2, Nat.add_sub_cancel, Nat.add_sub_cancel, rough_succ, Nat.mod_self, Nat.dvd_iff_mod_eq_zero]

/-- Crossing off the odd multiples. -/
theorem SvC.next_odd {off low high b : ℕ} {s s' : Vec Bool} (h : SvC off low high b s) (hb : 2 ≤ b) (hsz : s'.size = s.size)
    (hs : ∀ n, low ≤ n → n < high → (s'.get (n - off) = true ↔ s.get (n - off) = true ∧ n % (prm b * 2) ≠ prm b % (prm b * 2))) :
    SvC off low high (b + 1) s' := by
  refine ⟨by rw [hsz]; exact h.size, h.hoff, fun n h1 h2 => ?_⟩
  obtain ⟨b', rfl⟩ : ∃ b', b = b' + 1 := ⟨b - 1, by omega⟩
  rw [hs n h1 h2, h.bits n h1 h2, Nat.add_sub_cancel, Nat.add_sub_cancel, rough_succ]
  refine and_congr_right (fun hr => not_congr ?_)
  have hp := prm_pos (b' + 1)
  rw [Nat.mod_eq_of_lt (show prm (b' + 1) < prm (b' + 1) * 2 by omega)]
  constructor
  · intro h3
    have h4 := Nat.div_add_mod n (prm (b' + 1) * 2)
    rw [h3] at h4
    refine ⟨2 * (n / (prm (b' + 1) * 2)) + 1, ?_⟩
    generalize n / (prm (b' + 1) * 2) = t at h4 ⊢
    rw [← h4]; ring
  · rintro ⟨q, hq⟩
    have hodd := hr 1 le_rfl (by omega)
    rw [prm_one, hq] at hodd
    obtain ⟨r, rfl⟩ : ∃ r, q = 2 * r + 1 := by
      refine ⟨q / 2, ?_⟩
      have : ¬ 2 ∣ q := fun hd => hodd (Dvd.dvd.mul_left hd _)
      omega
    rw [hq, show prm (b' + 1) * (2 * r + 1) = prm (b' + 1) + prm (b' + 1) * 2 * r by ring, Nat.add_mul_mod_self_left]
    exact Nat.mod_eq_of_lt (by omega)

theorem next_first_all {p : ℕ} (hp : 0 < p) : Next p p 1 p := by
  refine ⟨hp, rfl, fun n h1 h2 h3 => ?_⟩
  rw [Nat.mod_self, Nat.mod_eq_of_lt h2] at h3
  omega

theorem next_first_odd {p : ℕ} (hp : 0 < p) : Next p (p * 2) 1 p := by
  refine ⟨hp, rfl, fun n h1 h2 h3 => ?_⟩
  rw [Nat.mod_eq_of_lt (show n < p * 2 by omega), Nat.mod_eq_of_lt (show p < p * 2 by omega)] at h3
  omega

theorem live_iff {low b : ℕ} (hbS : b ≤ g.S) (hc : g.c < b) (hb : b ≤ π g.y) :
    g.Live low b ↔ prm b < min (g.x / (prm b * low)) g.y := by
  unfold Live
  rw [if_pos hbS, Nat.div_div_eq_div_mul]
  exact ⟨fun h => h.2.2, fun h => ⟨hc, hb, h⟩⟩

/-! ### pi_lmo2 -/

/-- The invariant of the loop over `b`. -/
structure Inv2 (S : AccSpec R) (g : Cfg) (limit N b : ℕ) (st : Vec Bool × R) : Prop where
  sv : SvC 0 1 limit b st.1
  inv : ∃ s2z muz phi, SegInv coef g 1 (hS b 1 limit) N s2z muz phi ∧ (∀ j, b ≤ j → phi j = 0) ∧ S.Rep st.2 s2z

theorem body2_ok {w limit n b : ℕ} {st : Vec Bool × R} {primes lpf : Vec ℕ} {mu : Vec ℤ} (hg : g.Good)
    (hlim : limit = g.x / g.y + 1) (hW : W63 g w limit) (hA : AccHyp S g 1 limit)
    (hT : Tab g.y mu lpf) (hP : PrimeTable primes n) (hn : π g.y ≤ n) (hS : g.S + 1 = π g.y) (hc1 : 1 ≤ g.c) (hc : g.c < b)
    (hb : b < π g.y) (hI : Inv2 S g limit (π g.y) b st) :
    Ok (body2 w g.x g.y limit primes lpf mu b st) (Inv2 S g limit (π g.y) (b + 1)) := by
  have hp := prm_pos b
  have hy1 := hg.y1
  have hpy := prm_lt_y (by omega) hb
  have hst := hW.st
  have hyx : g.y ≤ g.x / prm b := by
    rw [Nat.le_div_iff_mul_le hp]
    exact le_trans (Nat.mul_le_mul_left _ hpy.le) hg.yx
  have hyz : g.y ≤ g.x / g.y := (Nat.le_div_iff_mul_le hy1).2 hg.yx
  have hlive : g.Live 1 b := by
    rw [live_iff (by omega) hc hb.le, mul_one]
    omega
  have hR : Range g b 1 limit (g.y / prm b) g.y := by
    have h := range_A (g := g) (low := 1) (high := limit) (by omega) (show b ≤ g.S by omega) hc hb.le le_rfl (by omega)
    have e1 : max (g.x / (prm b * limit)) (g.y / prm b) = g.y / prm b := by
      rw [Nat.mul_comm, ← Nat.div_div_eq_div_mul]
      apply max_eq_right
      apply Nat.div_le_div_right
      have : g.x < limit * g.y := by
        rw [hlim]
        exact Nat.lt_mul_of_div_lt (Nat.lt_succ_self _) hy1
      have := Nat.div_lt_of_lt_mul this
      omega
    have e2 : min (g.x / (prm b * 1)) g.y = g.y := by
      rw [mul_one]; exact min_eq_right hyx
    rwa [e1, e2] at h
  obtain ⟨s2z, muz, phi, hi, hphi, hs2⟩ := hI.inv
  have hphib := hphi b le_rfl
  have hH := leafHyp_of hA hg hi hS_self hb le_rfl le_rfl le_rfl hlive
  have hF := phiFit_of hi hS_self hb le_rfl le_rfl hW.ll
  rw [hphib] at hH hF
  unfold body2
  rw [hP.rd (by omega) (by omega)]
  simp only [ok_bind]
  rw [cdiv_ok hp]
  simp only [ok_bind]
  have hJ : ∀ t, JS 1 0 1 b 0 (1, 0) (t + 1) := fun t => ⟨rfl, le_rfl, by dsimp only; omega, by simp⟩
  refine Ok.bind (leavesA_ok (par := false) (S := S) (muz := 0) (advance_ok (phib := 0) (by omega) hF hI.sv.svR) hT hR hH (Nat.zero_le _) (by simp) (hW.yy hg)
    (s := (((1, 0), ⟨st.2, ofInt 0⟩) : (ℕ × ℤ) × Acc R)) ?_ hJ hs2 (by simp)) ?_
  · obtain ⟨t, ht⟩ : ∃ t, limit - 0 = t + 1 := ⟨limit - 1, by omega⟩
    rw [ht]; exact hJ t
  rintro ⟨s, a⟩ hl
  dsimp only
  rw [fit_ok (by omega), ok_bind]
  refine Ok.bind (crossC_ok (off := 0) (low := 1) (p := prm b) (Nat.zero_le _) hI.sv.size (by omega) (by omega) (by omega) (next_first_odd hp)) ?_
  rintro ⟨k, s'⟩ ⟨a1, -, a3⟩
  dsimp only at a1 a3 ⊢
  refine Ok.pure ⟨hI.sv.next_odd (by omega) a1 a3, ?_⟩
  refine ⟨_, fun j => if j = b then muz b + g.Mu coef b 1 limit else muz j,
    fun j => if j = b then phi b + Rs b 1 limit else phi j, ?_, ?_, hl.s2⟩
  · have := hi.step (low := 1) (high := limit) hS_self hb le_rfl (by omega) hlive (fun j _ => rfl) (fun j _ => rfl)
    rw [hS_update, hphib] at this
    simp only [hphib]
    exact this
  · intro j hj
    show (if j = b then _ else _) = (0 : ℤ)
    rw [if_neg (by omega)]
    exact hphi j (by omega)

theorem s2Lmo2_ok {w x y c : ℕ} {primes lpf : Vec ℕ} {mu : Vec ℤ} (hy : 1 ≤ y) (hyx : y * y ≤ x) (hx : x < 2 ^ 63)
    (hy31 : y < 2 ^ 31) (hz62 : x / y < 2 ^ 62)
    (hll : (x / y + 1) * (x / y + 1) < 2 ^ w) (hc : 1 ≤ c ∨ π y ≤ c) (hcy : c ≤ π y)
    (hA : AccHyp S (cfg x y c (π y - 1)) 1 (x / y + 1)) (hT : Tab y mu lpf) (hP : PrimeTable primes (π y)) :
    Ok (s2Lmo2 R w x y c primes lpf mu) (fun r => S.Rep r (S2Sum x y c)) := by
  have h0 : S.Rep (ofInt 0 : R) 0 := S.ofInt 0 (hA.phi 0 le_rfl (by positivity))
  set g := cfg x y c (π y - 1) with hgd
  have hg : g.Good := ⟨hy, hyx, by
    have h1 := pi_mono (Nat.sqrt_le_self y)
    show π (Nat.sqrt y) ≤ π y - 1 + 1
    omega⟩
  have hdead : ∀ j, π y ≤ j → ¬ g.Live 1 j := by
    rintro j hj ⟨h1, h2, h3⟩
    change j ≤ π y at h2
    change c < j at h1
    have hgS : ¬ j ≤ g.S := by show ¬ j ≤ π y - 1; omega
    rw [if_neg hgS] at h3
    obtain ⟨q, h4, h5, h6, -⟩ := h3
    have h7 : q ≤ y := h6.trans (min_le_right _ _)
    have h8 := pi_mono h7
    have : π q ≤ j := by omega
    have h9 := prm_le_prm (i := π q) (j := j) this
    rw [prm_pi h4] at h9
    omega
  have hyz : y ≤ x / y := (Nat.le_div_iff_mul_le hy).2 hyx
  have hzx : x / y ≤ x := Nat.div_le_self _ _
  have hW : W63 g w (x / y + 1) := ⟨show x < _ by omega, le_rfl, by show x / y + 1 + 2 * y + 2 < _; omega, hll⟩
  unfold s2Lmo2
  rw [cdiv_ok hy]
  simp only [ok_bind]
  rw [fit_ok (by omega), ok_bind]
  have hyprm : y < prm (π y + 1) := (lt_prm_iff_pi_lt (by omega)).2 (Nat.lt_succ_self _)
  rw [piBsearch_ok hP y hyprm]
  simp only [ok_bind]
  refine Ok.bind (forUp_ok (fun b (s : Vec Bool) => SvC 0 1 (x / y + 1) b s) ?_ (by omega) (fun b s h1 h2 h3 => ?_)) (fun s hs => ?_)
  · refine ⟨by simp, Nat.zero_le _, fun n h1 h2 => ?_⟩
    rw [Vec.get_mk' _ _ _ (by omega)]
    exact ⟨fun _ i hi hi' => by omega, fun _ => rfl⟩
  · have hp := prm_pos b
    rw [hP.rd h1 (by omega)]
    simp only [ok_bind]
    refine Ok.bind (crossC_ok (off := 0) (low := 1) (p := prm b) (Nat.zero_le _) h3.size hp (Nat.le_add_left 1 _)
      (by have := (prm_le_iff_le_pi (n := y) h1).2 (by omega); omega) (next_first_all hp)) ?_
    rintro ⟨k, s'⟩ ⟨a1, -, a3⟩
    exact Ok.pure (h3.next_all h1 a1 a3)
  · have hinit : Inv2 S g (x / y + 1) (π y) (c + 1) (s, (ofInt 0 : R)) := by
      refine ⟨hs, 0, fun _ => 0, fun _ => 0, ?_, fun _ _ => rfl, h0⟩
      exact SegInv.start hg (SegInv.init (fun _ _ => rfl) (fun _ _ => rfl)) le_rfl (Nat.le_add_left 1 _)
    refine Ok.bind (forUp_ok' (fun b st => Inv2 S g (x / y + 1) (π y) b st) hinit (fun b st h1 h2 h3 => ?_)) (fun st hst => Ok.pure ?_)
    · refine body2_ok (g := g) hg rfl hW hA hT hP le_rfl ?_ ?_ (by show c < b; omega) h2 h3
      · show π y - 1 + 1 = π y; omega
      · show 1 ≤ c; omega
    · obtain ⟨s2z, muz, phi, hi, -, hs2⟩ := hst.inv
      have hsk := hi.skip hg (b := max (c + 1) (π y)) (low := 1) (high := x / y + 1) ?_ ?_ le_rfl le_rfl (Nat.le_add_left 1 _)
        (fun j h _ => hdead j (by omega)) (fun j h => hdead j h)
      · have h4 := hsk.s2E
        have h5 : s2z = S2Sum x y c := by
          rw [h4]
          exact cfg_total hg
        rw [← h5]; exact hs2
      · intro j hj; unfold PS.hS; rw [if_pos hj]
      · intro j hj; unfold PS.hS; rw [if_neg (by omega)]

end Lmo
end PS
