import Verif.Model.S2Easy
import Verif.Proof.Leaves
import Verif.Proof.P2
import Verif.Proof.Tables
import Verif.Proof.Omp
import Verif.Proof.Res
import Verif.Proof.Roots
import Verif.Proof.Misc
import Verif.Proof.Libdivide
import Verif.Proof.Bounds
import Verif.Proof.Width

namespace PS
open Finset Res LawfulRes
open scoped Classical
local notation "π" => Nat.primeCounting

/-- Below the square of the next prime the rough numbers are 1 and the primes. -/
theorem phiSum_eq_primes {n a : ℕ} (hn : 1 ≤ n) (ha : a ≤ π n) (h : n < prm (a + 1) * prm (a + 1)) :
    phiSum n a + ∑ j ∈ Icc 1 a, prm j = primeSum n + 1 := by
  have hset : (Icc 1 n).filter (Rough a) = insert 1 (((Icc 1 n).filter Nat.Prime).filter (fun p => a < π p)) := by
    ext m
    simp only [Finset.mem_filter, Finset.mem_Icc, Finset.mem_insert]
    constructor
    · rintro ⟨⟨h1, h2⟩, h3⟩
      by_cases hm : m = 1
      · exact Or.inl hm
      right
      have hmf := Nat.minFac_prime hm
      have hge : prm (a + 1) ≤ m.minFac := by
        rw [rough_minFac hm] at h3
        rw [← prm_pi hmf]
        exact prm_le_prm (by omega)
      have hmp : m.Prime := by
        rw [Nat.prime_def_minFac]
        refine ⟨by omega, ?_⟩
        by_contra hc
        have h4 := Nat.minFac_sq_le_self h1 (by
          intro hp; exact hc (Nat.prime_def_minFac.1 hp).2)
        rw [sq] at h4
        have := Nat.mul_le_mul hge hge
        omega
      exact ⟨⟨⟨h1, h2⟩, hmp⟩, (rough_prime hmp).1 h3⟩
    · rintro (rfl | ⟨⟨h1, h2⟩, h3⟩)
      · exact ⟨⟨le_rfl, hn⟩, rough_one a⟩
      · exact ⟨h1, (rough_prime h2).2 h3⟩
  have hps : primeSum n = ∑ p ∈ (Icc 1 n).filter Nat.Prime, p := by
    unfold primeSum
    apply Finset.sum_congr _ (fun _ _ => rfl)
    ext m
    simp only [Finset.mem_filter, Finset.mem_range, Finset.mem_Icc]
    constructor
    · rintro ⟨h1, h2⟩; exact ⟨⟨h2.one_lt.le, by omega⟩, h2⟩
    · rintro ⟨h1, h2⟩; exact ⟨by omega, h2⟩
  have hlow : ∑ j ∈ Icc 1 a, prm j = ∑ p ∈ ((Icc 1 n).filter Nat.Prime).filter (fun p => ¬ a < π p), p := by
    refine Finset.sum_bij' (fun j _ => prm j) (fun p _ => π p) ?_ ?_ ?_ ?_ ?_
    · intro j hj
      rw [Finset.mem_Icc] at hj
      simp only [Finset.mem_filter, Finset.mem_Icc]
      exact ⟨⟨⟨prm_pos j, (prm_le_iff_le_pi (by omega)).2 (by omega)⟩, prm_prime j⟩, by rw [pi_prm hj.1]; omega⟩
    · intro p hp
      simp only [Finset.mem_filter, Finset.mem_Icc] at hp
      rw [Finset.mem_Icc]
      exact ⟨pi_pos hp.1.2.two_le, by omega⟩
    · intro j hj
      rw [Finset.mem_Icc] at hj
      exact pi_prm hj.1
    · intro p hp
      simp only [Finset.mem_filter] at hp
      exact prm_pi hp.1.2
    · intros; rfl
  unfold phiSum
  rw [hset, Finset.sum_insert, hlow, hps, ← Finset.sum_filter_add_sum_filter_not ((Icc 1 n).filter Nat.Prime)
    (fun p => a < π p)]
  · ring
  · simp [Nat.not_prime_one]

namespace S2Easy

/-- Term of the leaf `p_b p_l`. -/
noncomputable def term (x b l : ℕ) : ℤ :=
  ((prm b * prm l * phiSum (x / prm b / prm l) (b - 1) : ℕ) : ℤ)

/-- Assumptions on the tables. -/
structure Ctx (x y w : ℕ) (dv : ℕ → ℕ → M ℕ) (primes sums : Vec ℕ) (pi : PiTable) : Prop where
  hy1 : 1 ≤ y
  hy63 : y < 2 ^ 63
  hx : x < 2 ^ 124
  hw : primeSum y + 1 < 2 ^ w
  hw2 : y * y < 2 ^ w
  hp : PrimeTable primes (π y)
  hs : SumTable sums y
  hpi : pi.Valid
  hmax : pi.max = y
  hdv : ∀ x2 l, x2 ≤ x → 1 ≤ l → l ≤ π y → dv x2 l = .ok (x2 / prm l)

/-- What the proofs need about the result type: `Rep r z` says that `r` stands for `z`. -/
structure EasySpec (R : Type) [Res R] where
  Rep : R → ℤ → Prop
  zero : Rep (ofInt 0) 0
  add : ∀ a b x y, Rep a x → Rep b y → Rep (add a b) (x + y)
  term3 : ∀ {acc : R} {z a p d : ℤ}, Rep acc z → 1 ≤ a → a < 2 ^ 126 → 1 ≤ p → p < 2 ^ 63 → 1 ≤ d → d < 2 ^ 126 →
    Rep (Res.add acc (mul (mul (ofInt a) (ofInt p)) (ofInt d))) (z + a * p * d)
  term2 : ∀ {acc : R} {z a p : ℤ}, Rep acc z → 1 ≤ a → a < 2 ^ 126 → 1 ≤ p → p < 2 ^ 127 →
    Rep (Res.add acc (mul (ofInt a) (ofInt p))) (z + a * p)

variable {R : Type} [Res R] (S : EasySpec R) {x y w : ℕ} {dv : ℕ → ℕ → M ℕ} {primes sums : Vec ℕ} {pi : PiTable}

theorem sum_bound {y : ℕ} (hy63 : y < 2 ^ 63) : primeSum y + 1 < 2 ^ 126 := by
  have hle := primeSum_le y
  have : y * (y + 1) ≤ (2 ^ 63 - 1) * 2 ^ 63 := Nat.mul_le_mul (by omega) (by omega)
  omega

theorem sum_Icc_le {y i : ℕ} (hi : i ≤ π y) : ∑ j ∈ Icc 1 i, prm j ≤ primeSum y := by
  rw [primeSum_eq_sum_prm]
  exact Finset.sum_le_sum_of_subset (Finset.Icc_subset_Icc_right hi)

/-- The number of rough numbers below a quotient, from the table. -/
theorem phi_ok {b n : ℕ} (C : Ctx x y w dv primes sums pi) (hb : 1 ≤ b)
    (hn : prm b ≤ n) (hny : n ≤ y) (hyb : y < prm b * prm b) :
    Ok (do
      let s ← sums.rd (π n)
      let sb ← sums.rdI ((b : ℤ) - 1)
      let s1 ← fit w (s + 1)
      csub s1 sb) (fun r => r = phiSum n (b - 1)) := by
  have hpn : b ≤ π n := (prm_le_iff_le_pi hb).1 hn
  have hpy := pi_mono hny
  rw [C.hs.rd_pi hny]
  simp only [ok_bind]
  have e : (b : ℤ) - 1 = ((b - 1 : ℕ) : ℤ) := by omega
  have h1 := C.hs.rd_le (i := b - 1) (by omega)
  have h2 : sums.rdI ((b - 1 : ℕ) : ℤ) = sums.rd (b - 1) := by
    unfold Vec.rdI; rw [if_pos (by omega), Int.toNat_natCast]
  rw [e, h2, h1]
  simp only [ok_bind]
  have := phiSum_eq_primes (n := n) (a := b - 1) (by have := prm_pos b; omega) (by omega)
    (by rw [show b - 1 + 1 = b by omega]; omega)
  have hm := primeSum_mono hny
  have hw := C.hw
  rw [fit_ok (by omega)]
  simp only [ok_bind]
  rw [csub_ok (by omega)]
  exact Ok.ok (by omega)

theorem rep_term3 [LawfulRes R] {acc : R} {z a p d : ℤ} (ha : LawfulRes.Rep acc z) (h1 : 0 ≤ a) (h2 : a < 2 ^ 126) (h3 : 0 ≤ p)
    (h4 : p < 2 ^ 63) (h5 : 0 ≤ d) (h6 : d < 2 ^ 126) :
    LawfulRes.Rep (add acc (mul (mul (ofInt a) (ofInt p)) (ofInt d))) (z + a * p * d) := by
  have hm : a * p ≤ 2 ^ 126 * 2 ^ 63 := mul_le_mul h2.le h4.le h3 (by norm_num)
  have hm0 : 0 ≤ a * p := mul_nonneg h1 h3
  refine rep_add _ _ _ _ ha (rep_mul _ _ _ _ (rep_mul _ _ _ _ (rep_ofInt a (by omega) (by omega))
    (rep_ofInt p (by omega) (by omega)) (by omega) (by omega) (by omega) (by omega))
    (rep_ofInt d (by omega) (by omega)) (by omega) ?_ (by omega) (by omega))
  refine lt_of_le_of_lt hm ?_
  norm_num

theorem rep_term2 [LawfulRes R] {acc : R} {z a p : ℤ} (ha : LawfulRes.Rep acc z) (h1 : 0 ≤ a) (h2 : a < 2 ^ 126) (h3 : 0 ≤ p)
    (h4 : p < 2 ^ 127) :
    LawfulRes.Rep (add acc (mul (ofInt a) (ofInt p))) (z + a * p) :=
  rep_add _ _ _ _ ha (rep_mul _ _ _ _ (rep_ofInt a (by omega) (by omega))
    (rep_ofInt p (by omega) (by omega)) (by omega) (by omega) (by omega) (by omega))

/-- Types that represent integers modulo a power of two. -/
def EasySpec.lawful [LawfulRes R] : EasySpec R where
  Rep := LawfulRes.Rep
  zero := rep_ofInt 0 (by norm_num) (by norm_num)
  add := rep_add
  term3 ha h1 h2 h3 h4 h5 h6 := rep_term3 ha (by omega) h2 (by omega) h4 (by omega) h6
  term2 ha h1 h2 h3 h4 := rep_term2 ha (by omega) h2 (by omega) h4

/-- One step over the clustered leaves. -/
theorem clusteredStep_ok {b l mc : ℕ} (C : Ctx x y w dv primes sums pi) (hb : 1 ≤ b) (hby : b ≤ π y)
    (hyb : y < prm b * prm b) (hl : π mc < l) (hly : l ≤ π y) (hmc : mc ≤ y) (hsq : Nat.sqrt (x / prm b) ≤ mc)
    (hltr : prm l ≤ x / prm b / prm b) {acc : R} {z : ℤ} (ha : S.Rep acc z) :
    Ok (clusteredStep w (dv (x / prm b)) sums pi b (prm b) mc l acc)
      (fun r => r.1 < l ∧ π mc ≤ r.1 ∧ S.Rep r.2 (z + ∑ j ∈ Ioc r.1 l, term x b j)) := by
  obtain ⟨hy1, hy63, hx, hw, hw2, hp, hs, hpi, hmax, hdv⟩ := C
  have C : Ctx x y w dv primes sums pi := ⟨hy1, hy63, hx, hw, hw2, hp, hs, hpi, hmax, hdv⟩
  have hx2 : x / prm b ≤ x := Nat.div_le_self _ _
  obtain ⟨x2, hx2e⟩ : ∃ x2, x2 = x / prm b := ⟨_, rfl⟩
  have hl1 : 1 ≤ l := by omega
  have hlp := prm_pos l
  have hply : prm l ≤ y := (prm_le_iff_le_pi hl1).2 hly
  have hmcl : mc < prm l := (lt_prm_iff_pi_lt hl1).2 hl
  have hxn : x2 / prm l < prm l := by
    rw [Nat.div_lt_iff_lt_mul hlp, hx2e, ← Nat.sqrt_lt]
    omega
  have hpb := prm_pos b
  have hxnb : prm b ≤ x2 / prm l := by
    rw [Nat.le_div_iff_mul_le hlp, Nat.mul_comm]
    rw [← hx2e, Nat.le_div_iff_mul_le hpb] at hltr
    exact hltr
  unfold clusteredStep
  rw [← hx2e, hdv x2 l (by omega) hl1 hly]
  simp only [ok_bind]
  rw [fit_ok (by omega)]
  simp only [ok_bind]
  rw [PiTable.at_ok hpi (by omega)]
  simp only [ok_bind]
  have hphi := phi_ok (n := x2 / prm l) C hb hxnb (by omega) hyb
  obtain ⟨s, hsrd, hphi⟩ : ∃ s, sums.rd (π (x2 / prm l)) = .ok s ∧ Ok (do
      let sb ← sums.rdI ((b : ℤ) - 1)
      let s1 ← fit w (s + 1)
      csub s1 sb) (fun r => r = phiSum (x2 / prm l) (b - 1)) := by
    rw [hs.rd_pi (by omega)] at hphi
    exact ⟨_, hs.rd_pi (by omega), hphi⟩
  rw [hsrd]
  simp only [ok_bind]
  obtain ⟨sb, hsb, hphi⟩ : ∃ sb, sums.rdI ((b : ℤ) - 1) = .ok sb ∧ Ok (do
      let s1 ← fit w (s + 1)
      csub s1 sb)
      (fun r => r = phiSum (x2 / prm l) (b - 1)) := by
    cases hc : sums.rdI ((b : ℤ) - 1) with
    | error e => rw [hc] at hphi; obtain ⟨_, h, _⟩ := hphi; simp at h
    | ok sb => rw [hc] at hphi; exact ⟨sb, rfl, hphi⟩
  rw [hsb]
  simp only [ok_bind]
  obtain ⟨s1, hs1, hphi⟩ : ∃ s1, fit w (s + 1) = .ok s1 ∧ Ok (csub s1 sb)
      (fun r => r = phiSum (x2 / prm l) (b - 1)) := by
    cases hc : fit w (s + 1) with
    | error e => rw [hc] at hphi; obtain ⟨_, h, _⟩ := hphi; simp at h
    | ok s1 => rw [hc] at hphi; exact ⟨s1, rfl, hphi⟩
  rw [hs1]
  simp only [ok_bind]
  refine Ok.bind hphi (fun phi hphi => ?_)
  subst hphi
  obtain ⟨k, hk⟩ : ∃ k, k = π (x2 / prm l) + 1 := ⟨_, rfl⟩
  have e : (b : ℤ) + ((π (x2 / prm l) : ℕ) - (b : ℤ) + 2) - 1 = (k : ℕ) := by omega
  have hkl : k ≤ l := by
    have := (lt_prm_iff_pi_lt hl1).1 hxn
    omega
  rw [e, if_neg (by omega), Int.toNat_natCast, hdv x2 k (by omega) (by omega) (by omega)]
  simp only [ok_bind]
  have hkp := prm_pos k
  have hxk : x2 / prm l < prm k := (lt_prm_iff_pi_lt (by omega)).2 (by omega)
  have hxm : x2 / prm k < prm l := by
    rw [Nat.div_lt_iff_lt_mul hkp]
    rw [Nat.div_lt_iff_lt_mul hlp] at hxk
    rw [Nat.mul_comm]; exact hxk
  have hm1 : max (x2 / prm k) mc < prm l := max_lt hxm hmcl
  rw [fit_ok (by omega)]
  simp only [ok_bind]
  rw [PiTable.at_ok hpi (by omega)]
  simp only [ok_bind]
  have hl2 : π (max (x2 / prm k) mc) < l := (lt_prm_iff_pi_lt hl1).1 hm1
  have hl2mc : π mc ≤ π (max (x2 / prm k) mc) := pi_mono (le_max_right _ _)
  obtain ⟨l2, hl2e⟩ : ∃ l2, l2 = π (max (x2 / prm k) mc) := ⟨_, rfl⟩
  rw [← hl2e] at hl2 hl2mc ⊢
  rw [hs.rd_le hly, hs.rd_le (by omega : l2 ≤ π y)]
  simp only [ok_bind]
  have hdiff : ∑ j ∈ Icc 1 l, prm j = ∑ j ∈ Icc 1 l2, prm j + ∑ j ∈ Ioc l2 l, prm j := by
    rw [← Finset.sum_union]
    · congr 1
      ext j; simp only [Finset.mem_Icc, Finset.mem_union, Finset.mem_Ioc]; omega
    · rw [Finset.disjoint_left]
      intro j; simp only [Finset.mem_Icc, Finset.mem_Ioc]; omega
  rw [csub_ok (by omega)]
  simp only [ok_bind]
  refine Ok.pure ⟨hl2, hl2mc, ?_⟩
  have hsb := sum_bound hy63
  have hsl := sum_Icc_le hly
  have hpby : prm b ≤ y := (prm_le_iff_le_pi hb).2 hby
  have hphib : phiSum (x2 / prm l) (b - 1) ≤ primeSum y + 1 ∧ 1 ≤ phiSum (x2 / prm l) (b - 1) := by
    have := phiSum_eq_primes (n := x2 / prm l) (a := b - 1) (by omega)
      (by have := (prm_le_iff_le_pi hb).1 hxnb; omega) (by rw [show b - 1 + 1 = b by omega]; omega)
    have := primeSum_mono (show x2 / prm l ≤ y by omega)
    have := sum_Icc_le (y := x2 / prm l) (i := b - 1) (by have := (prm_le_iff_le_pi hb).1 hxnb; omega)
    omega
  have hd1 : prm l ≤ ∑ j ∈ Ioc l2 l, prm j :=
    Finset.single_le_sum (f := fun j => prm j) (fun _ _ => Nat.zero_le _) (Finset.mem_Ioc.2 ⟨hl2, le_rfl⟩)
  have hT : ∑ j ∈ Ioc l2 l, term x b j = (phiSum (x2 / prm l) (b - 1) : ℤ) * (prm b : ℕ) *
      ((∑ j ∈ Icc 1 l, prm j - ∑ j ∈ Icc 1 l2, prm j : ℕ) : ℤ) := by
    rw [hdiff, Nat.add_sub_cancel_left]
    push_cast
    rw [Finset.mul_sum]
    apply Finset.sum_congr rfl
    intro j hj
    rw [Finset.mem_Ioc] at hj
    have hj1 : 1 ≤ j := by omega
    have hjp := prm_pos j
    have hjl : prm j ≤ prm l := prm_le_prm hj.2
    have h1 : x2 / prm l ≤ x2 / prm j := Nat.div_le_div_left hjl hjp
    have h2 : x2 / prm j < prm k := by
      have : max (x2 / prm k) mc < prm j := (lt_prm_iff_pi_lt hj1).2 (by omega)
      have : x2 / prm k < prm j := lt_of_le_of_lt (le_max_left _ _) this
      rw [Nat.div_lt_iff_lt_mul hkp, Nat.mul_comm] at this
      rwa [Nat.div_lt_iff_lt_mul hjp]
    have h3 : π (x2 / prm j) = π (x2 / prm l) := by
      have := pi_mono h1
      have := (lt_prm_iff_pi_lt (n := x2 / prm j) (i := k) (by omega)).1 h2
      omega
    have hkly : prm k ≤ prm l := prm_le_prm hkl
    have hbπ : b - 1 ≤ π (x2 / prm l) := by have := (prm_le_iff_le_pi hb).1 hxnb; omega
    have h4 := phiSum_eq_primes (n := x2 / prm l) (a := b - 1) (by omega) hbπ
      (by rw [show b - 1 + 1 = b by omega]; omega)
    have h5 := phiSum_eq_primes (n := x2 / prm j) (a := b - 1) (by omega) (by omega)
      (by rw [show b - 1 + 1 = b by omega]; omega)
    have h6 : primeSum (x2 / prm j) = primeSum (x2 / prm l) := by
      rw [primeSum_eq_sum_prm, primeSum_eq_sum_prm, h3]
    have h7 : phiSum (x2 / prm j) (b - 1) = phiSum (x2 / prm l) (b - 1) := by omega
    unfold term
    rw [← hx2e, h7]
    push_cast
    ring
  rw [hT]
  exact S.term3 ha (by omega) (by omega) (by omega) (by omega) (by omega) (by omega)

theorem sparseStep_ok {b l : ℕ} (C : Ctx x y w dv primes sums pi) (hb : 1 ≤ b) (hby : b ≤ π y)
    (hyb : y < prm b * prm b) (hl1 : 1 ≤ l) (hly : l ≤ π y) (hz : x / prm b / prm l ≤ y)
    (hltr : prm l ≤ x / prm b / prm b) {acc : R} {z : ℤ} (ha : S.Rep acc z) :
    Ok (sparseStep w (dv (x / prm b)) primes sums pi b (prm b) l acc) (fun r => S.Rep r (z + term x b l)) := by
  have hx2 : x / prm b ≤ x := Nat.div_le_self _ _
  obtain ⟨x2, hx2e⟩ : ∃ x2, x2 = x / prm b := ⟨_, rfl⟩
  rw [← hx2e] at hz
  have hlp := prm_pos l
  have hply : prm l ≤ y := (prm_le_iff_le_pi hl1).2 hly
  have hpb := prm_pos b
  have hpby : prm b ≤ y := (prm_le_iff_le_pi hb).2 hby
  have hxnb : prm b ≤ x2 / prm l := by
    rw [Nat.le_div_iff_mul_le hlp, Nat.mul_comm]
    rw [← hx2e, Nat.le_div_iff_mul_le hpb] at hltr
    exact hltr
  unfold sparseStep
  have hmax := C.hmax
  have hy63 := C.hy63
  rw [← hx2e, C.hdv x2 l (by omega) hl1 hly]
  simp only [ok_bind]
  rw [fit_ok (by omega)]
  simp only [ok_bind]
  rw [PiTable.at_ok C.hpi (by omega)]
  simp only [ok_bind]
  have hphi := phi_ok (n := x2 / prm l) C hb hxnb (by omega) hyb
  obtain ⟨s, hsrd, hphi⟩ : ∃ s, sums.rd (π (x2 / prm l)) = .ok s ∧ Ok (do
      let sb ← sums.rdI ((b : ℤ) - 1)
      let s1 ← fit w (s + 1)
      csub s1 sb) (fun r => r = phiSum (x2 / prm l) (b - 1)) := by
    rw [C.hs.rd_pi (by omega)] at hphi
    exact ⟨_, C.hs.rd_pi (by omega), hphi⟩
  rw [hsrd]
  simp only [ok_bind]
  obtain ⟨sb, hsb, hphi⟩ : ∃ sb, sums.rdI ((b : ℤ) - 1) = .ok sb ∧ Ok (do
      let s1 ← fit w (s + 1)
      csub s1 sb)
      (fun r => r = phiSum (x2 / prm l) (b - 1)) := by
    cases hc : sums.rdI ((b : ℤ) - 1) with
    | error e => rw [hc] at hphi; obtain ⟨_, h, _⟩ := hphi; simp at h
    | ok sb => rw [hc] at hphi; exact ⟨sb, rfl, hphi⟩
  rw [hsb]
  simp only [ok_bind]
  obtain ⟨s1, hs1, hphi⟩ : ∃ s1, fit w (s + 1) = .ok s1 ∧ Ok (csub s1 sb)
      (fun r => r = phiSum (x2 / prm l) (b - 1)) := by
    cases hc : fit w (s + 1) with
    | error e => rw [hc] at hphi; obtain ⟨_, h, _⟩ := hphi; simp at h
    | ok s1 => rw [hc] at hphi; exact ⟨s1, rfl, hphi⟩
  rw [hs1]
  simp only [ok_bind]
  refine Ok.bind hphi (fun phi hphi => ?_)
  subst hphi
  rw [C.hp.rd hl1 hly]
  simp only [ok_bind]
  rw [fit_ok ((Nat.mul_le_mul hpby hply).trans_lt C.hw2)]
  simp only [ok_bind]
  refine Ok.pure ?_
  have hsb := sum_bound C.hy63
  have hphib : phiSum (x2 / prm l) (b - 1) ≤ primeSum y + 1 ∧ 1 ≤ phiSum (x2 / prm l) (b - 1) := by
    have := phiSum_eq_primes (n := x2 / prm l) (a := b - 1) (by omega)
      (by have := (prm_le_iff_le_pi hb).1 hxnb; omega) (by rw [show b - 1 + 1 = b by omega]; omega)
    have := primeSum_mono (show x2 / prm l ≤ y by omega)
    have := sum_Icc_le (y := x2 / prm l) (i := b - 1) (by have := (prm_le_iff_le_pi hb).1 hxnb; omega)
    omega
  have hpl0 : 1 ≤ prm b * prm l := Nat.mul_pos hpb hlp
  have hpl : prm b * prm l ≤ 2 ^ 63 * 2 ^ 63 := Nat.mul_le_mul (by omega) (by omega)
  have hT : term x b l = (phiSum (x2 / prm l) (b - 1) : ℤ) * ((prm b * prm l : ℕ) : ℤ) := by
    unfold term
    rw [← hx2e]
    push_cast; ring
  rw [hT]
  exact S.term2 ha (by omega) (by omega) (by omega) (by omega)

theorem inBetween_nat (a b c : ℕ) : ∃ r : ℕ, inBetween (a : ℤ) b c = r ∧
    ((b < a ∧ r = a) ∨ (a ≤ b ∧ c < b ∧ r = c) ∨ (a ≤ b ∧ b ≤ c ∧ r = b)) := by
  unfold inBetween
  by_cases h1 : b < a
  · exact ⟨a, by rw [if_pos (by omega)], Or.inl ⟨h1, rfl⟩⟩
  · by_cases h2 : c < b
    · exact ⟨c, by rw [if_neg (by omega), if_pos (by omega)], Or.inr (Or.inl ⟨by omega, h2, rfl⟩)⟩
    · exact ⟨b, by rw [if_neg (by omega), if_neg (by omega)], Or.inr (Or.inr ⟨by omega, by omega, rfl⟩)⟩

/-- The leaves of one `b`. -/
noncomputable def leavesOf (x y b : ℕ) : ℤ :=
  ∑ l ∈ (Ioc b (π y)).filter (fun l => x / y < prm b * prm l ∧ prm b * prm b * prm l ≤ x), term x b l

theorem body_ok {b : ℕ} (C : Ctx x y w dv primes sums pi) (hb : 1 ≤ b) (hby : b ≤ π y)
    (hyb : y < prm b * prm b) {acc : R} {v : ℤ} (ha : S.Rep acc v) :
    Ok (body w dv x y (x / y) primes sums pi b acc) (fun r => S.Rep r (v + leavesOf x y b)) := by
  have hy1 := C.hy1
  have hpb := prm_pos b
  have hpby : prm b ≤ y := (prm_le_iff_le_pi hb).2 hby
  have hmax := C.hmax
  unfold body
  rw [C.hp.rd hb hby]
  simp only [ok_bind]
  rw [cdiv_ok hpb, cdiv_ok hpb]
  simp only [ok_bind]
  have hsq63 : Nat.sqrt (x / prm b) < 2 ^ 63 := by
    have h1 := Nat.div_le_self x (prm b)
    have h2 := C.hx
    rw [Nat.sqrt_lt']
    omega
  rw [fit_ok hsq63]
  simp only [ok_bind]
  rw [cdiv_ok hpb]
  simp only [ok_bind]
  rw [cdiv_ok hpb]
  simp only [ok_bind]
  have hmh : max (y / prm b) (prm b) = prm b := by
    refine max_eq_right ?_
    have : y / prm b < prm b := by rw [Nat.div_lt_iff_lt_mul hpb]; exact hyb
    omega
  rw [hmh]
  obtain ⟨mc, hmc, hmc'⟩ := inBetween_nat (prm b) (Nat.sqrt (x / prm b)) y
  obtain ⟨ms, hms, hms'⟩ := inBetween_nat (prm b) (x / y / prm b) y
  rw [hmc, hms, Int.toNat_natCast, Int.toNat_natCast]
  rw [PiTable.at_ok C.hpi (by omega : min (x / prm b / prm b) y ≤ pi.max), PiTable.at_ok C.hpi (by omega : mc ≤ pi.max)]
  simp only [ok_bind]
  rw [PiTable.at_ok C.hpi (by omega : ms ≤ pi.max)]
  simp only [ok_bind]
  obtain ⟨l0, hl0⟩ : ∃ l0, l0 = π (min (x / prm b / prm b) y) := ⟨_, rfl⟩
  rw [← hl0]
  have hl0y : l0 ≤ π y := by rw [hl0]; exact pi_mono (min_le_right _ _)
  have hl0t : ∀ l, 1 ≤ l → l ≤ l0 → prm l ≤ x / prm b / prm b := by
    intro l h1 h2
    rw [hl0, ← prm_le_iff_le_pi h1] at h2
    omega
  -- leaves above `mc` are above `ms`
  have habove : ∀ j, π mc < j → j ≤ l0 → π ms < j := by
    intro j h1 h2
    have hj1 : 1 ≤ j := by omega
    rw [← lt_prm_iff_pi_lt hj1] at h1 ⊢
    have hjy : prm j ≤ y := (prm_le_iff_le_pi hj1).2 (by omega)
    have hjp := prm_pos j
    have hsq : Nat.sqrt (x / prm b) < prm j := by omega
    rw [Nat.sqrt_lt] at hsq
    have h3 : x / y / prm b < prm j := by
      rw [Nat.div_lt_iff_lt_mul hpb, Nat.div_lt_iff_lt_mul hy1]
      rw [Nat.div_lt_iff_lt_mul hpb] at hsq
      have : prm j * prm j * prm b ≤ prm j * prm b * y := by
        have := Nat.mul_le_mul_left (prm j * prm b) hjy
        calc prm j * prm j * prm b = prm j * prm b * prm j := by ring
          _ ≤ _ := this
      omega
    omega
  refine Ok.bind (P := fun s : ℕ × R => s.1 ≤ l0 ∧ S.Rep s.2 (v + ∑ j ∈ Ioc s.1 l0, term x b j) ∧
      (∀ j, s.1 < j → j ≤ l0 → π ms < j)) ?_ (fun s hs => ?_)
  · refine loop_ok (fun s : ℕ × R => s.1 ≤ l0 ∧ S.Rep s.2 (v + ∑ j ∈ Ioc s.1 l0, term x b j) ∧
        (∀ j, s.1 < j → j ≤ l0 → π ms < j)) (fun s => s.1) _ ?_ (by simp) ?_
    · exact ⟨le_rfl, by simpa using ha, fun j h1 h2 => by simp only at h1; omega⟩
    · rintro ⟨l, acc⟩ ⟨h1, h2, h3⟩
      simp only at h1 h2 h3 ⊢
      refine Ok.ite (fun hl => ?_) (fun hl => Ok.pure ⟨h1, h2, h3⟩)
      have hsq : Nat.sqrt (x / prm b) ≤ mc := by
        by_contra hc
        have : mc = y := by omega
        rw [this] at hl
        omega
      refine Ok.bind (clusteredStep_ok S C hb hby hyb (l := l) (mc := mc) hl (by omega) (by omega) hsq
        (hl0t l (by omega) h1) h2) (fun r hr => Ok.pure ⟨⟨by omega, ?_, ?_⟩, hr.1⟩)
      · have := hr.2.2
        rw [add_assoc, ← Finset.sum_union] at this
        · have e : Ioc l l0 ∪ Ioc r.1 l = Ioc r.1 l0 := by
            ext j; simp only [Finset.mem_union, Finset.mem_Ioc]; omega
          rw [e] at this
          exact this
        · rw [Finset.disjoint_left]
          intro j; simp only [Finset.mem_Ioc]; omega
      · intro j h4 h5
        exact habove j (by omega) h5
  · obtain ⟨l, acc'⟩ := s
    simp only at hs ⊢
    obtain ⟨h1, h2, h3⟩ := hs
    have hfin : v + ∑ j ∈ Ioc (π ms) l0, term x b j = v + leavesOf x y b := by
      congr 1
      unfold leavesOf
      apply Finset.sum_congr _ (fun _ _ => rfl)
      ext j
      simp only [Finset.mem_Ioc, Finset.mem_filter]
      constructor
      · rintro ⟨h4, h5⟩
        have hj1 : 1 ≤ j := by omega
        have h6 := (lt_prm_iff_pi_lt hj1).2 h4
        have hjy : prm j ≤ y := (prm_le_iff_le_pi hj1).2 (by omega)
        have h8 : x / y / prm b < prm j := by omega
        refine ⟨⟨?_, by omega⟩, ?_, ?_⟩
        · rw [← prm_lt_iff hb hj1]; omega
        · rw [Nat.div_lt_iff_lt_mul hpb, Nat.mul_comm] at h8; exact h8
        · have := hl0t j hj1 h5
          rw [Nat.le_div_iff_mul_le hpb, Nat.le_div_iff_mul_le hpb] at this
          calc prm b * prm b * prm j = prm j * prm b * prm b := by ring
            _ ≤ x := this
      · rintro ⟨⟨h4, h5⟩, h6, h7⟩
        have hj1 : 1 ≤ j := by omega
        have hjy : prm j ≤ y := (prm_le_iff_le_pi hj1).2 h5
        constructor
        · rw [← lt_prm_iff_pi_lt hj1]
          have h8 : x / y / prm b < prm j := by rw [Nat.div_lt_iff_lt_mul hpb, Nat.mul_comm]; exact h6
          have h9 := prm_lt_prm hb h4
          omega
        · rw [hl0, ← prm_le_iff_le_pi hj1, le_min_iff]
          refine ⟨?_, hjy⟩
          rw [Nat.le_div_iff_mul_le hpb, Nat.le_div_iff_mul_le hpb]
          calc prm j * prm b * prm b = prm b * prm b * prm j := by ring
            _ ≤ x := h7
    by_cases hcmp : π ms ≤ l
    · refine (forDown_ok (fun i r => S.Rep r (v + ∑ j ∈ Ioc i l0, term x b j)) h2 hcmp ?_).mono
        (fun r hr => by rw [hfin] at hr; exact hr)
      intro i r hi1 hi2 hr
      have hi0 : 1 ≤ i := by omega
      have h8 : x / y / prm b < prm i := by
        have h6 := (lt_prm_iff_pi_lt hi0).2 hi1
        have hjy : prm i ≤ y := (prm_le_iff_le_pi hi0).2 (by omega)
        omega
      have hip := prm_pos i
      refine (sparseStep_ok S C hb hby hyb hi0 (by omega) ?_ (hl0t i hi0 (by omega)) hr).mono (fun r' hr' => ?_)
      · rw [Nat.div_lt_iff_lt_mul hpb, Nat.div_lt_iff_lt_mul hy1] at h8
        have : x / prm b / prm i < y := by
          rw [Nat.div_lt_iff_lt_mul hip, Nat.div_lt_iff_lt_mul hpb]
          calc x < prm i * prm b * y := h8
            _ = y * prm i * prm b := by ring
        omega
      · have e : Ioc (i - 1) l0 = insert i (Ioc i l0) := by
          ext j; simp only [Finset.mem_insert, Finset.mem_Ioc]; omega
        rw [e, Finset.sum_insert (by simp), add_comm (term x b i), ← add_assoc]
        exact hr'
    · unfold forDown
      rw [if_neg (by omega)]
      refine Ok.ok ?_
      rw [← hfin]
      have e : Ioc (π ms) l0 = Ioc l l0 := by
        ext j; simp only [Finset.mem_Ioc]
        constructor
        · rintro ⟨h4, h5⟩; omega
        · rintro ⟨h4, h5⟩; exact ⟨h3 j h4 h5, h5⟩
      rw [e]; exact h2

theorem S2EasySum_eq {x y c : ℕ} (hxy : x < (y + 1) ^ 3) :
    (S2EasySum x y c : ℤ) = ∑ b ∈ Ico (max c (π (Nat.sqrt y)) + 1) (π (iroot 3 x) + 1), leavesOf x y b := by
  have hx13 : iroot 3 x ≤ y := by
    by_contra hc
    push Not at hc
    have := Nat.pow_le_pow_left (show y + 1 ≤ iroot 3 x from hc) 3
    have := iroot_le 3 x (by norm_num)
    omega
  unfold S2EasySum leavesOf
  push_cast
  rw [Finset.sum_sigma']
  refine Finset.sum_bij' (fun pq _ => ⟨π pq.1, π pq.2⟩) (fun bl _ => (prm bl.1, prm bl.2)) ?_ ?_ ?_ ?_ ?_
  · rintro ⟨p, q⟩ h
    unfold easyPairs at h
    simp only [Finset.mem_filter, Finset.mem_product, Finset.mem_Icc] at h
    obtain ⟨⟨⟨_, _⟩, _, h1⟩, hp, hq, h2, h3, h4, h5, h6⟩ := h
    simp only [Finset.mem_sigma, Finset.mem_Ico, Finset.mem_filter, Finset.mem_Ioc]
    rw [prm_pi hp, prm_pi hq]
    have hpp := pi_pos hp.two_le
    have hqq := pi_pos hq.two_le
    have hsq : π (Nat.sqrt y) < π p := by
      rw [← lt_prm_iff_pi_lt hpp, prm_pi hp, Nat.sqrt_lt]; exact h4
    refine ⟨⟨by omega, ?_⟩, ⟨?_, pi_mono h1⟩, h5, h6⟩
    · have : p ≤ iroot 3 x := by
        rw [le_iroot_iff (by norm_num)]
        have : p * p * p ≤ p * p * q := Nat.mul_le_mul_left _ h2.le
        rw [pow_succ, sq]; omega
      have := pi_mono this
      omega
    · rw [← prm_lt_iff hpp hqq, prm_pi hp, prm_pi hq]; exact h2
  · rintro ⟨b, l⟩ h
    simp only [Finset.mem_sigma, Finset.mem_Ico, Finset.mem_filter, Finset.mem_Ioc] at h
    obtain ⟨⟨h1, h2⟩, ⟨h3, h4⟩, h5, h6⟩ := h
    unfold easyPairs
    simp only [Finset.mem_filter, Finset.mem_product, Finset.mem_Icc]
    have hb : 1 ≤ b := by omega
    have hl : 1 ≤ l := by omega
    have hb13 : prm b ≤ iroot 3 x := (prm_le_iff_le_pi hb).2 (by omega)
    refine ⟨⟨⟨prm_pos b, by omega⟩, prm_pos l, (prm_le_iff_le_pi hl).2 h4⟩, prm_prime b, prm_prime l,
      prm_lt_prm hb h3, ?_, ?_, h5, h6⟩
    · rw [pi_prm hb]; omega
    · rw [← Nat.sqrt_lt, lt_prm_iff_pi_lt hb]; omega
  · rintro ⟨p, q⟩ h
    unfold easyPairs at h
    simp only [Finset.mem_filter] at h
    simp only [prm_pi h.2.1, prm_pi h.2.2.1]
  · rintro ⟨b, l⟩ h
    simp only [Finset.mem_sigma, Finset.mem_Ico, Finset.mem_filter, Finset.mem_Ioc] at h
    simp only [pi_prm (show 1 ≤ b by omega), pi_prm (show 1 ≤ l by omega)]
  · rintro ⟨p, q⟩ h
    unfold easyPairs at h
    simp only [Finset.mem_filter] at h
    unfold term
    rw [prm_pi h.2.1, prm_pi h.2.2.1, Nat.div_div_eq_div_mul]
    push_cast; rfl

theorem omp_ok {sched : Scheduler} (hsch : sched.Valid) {c : ℕ} (hxy : x < (y + 1) ^ 3) (hy1 : 1 ≤ y)
    (hy63 : y < 2 ^ 63) (hp : PrimeTable primes (π y)) (hs : SumTable sums y)
    (hx : x < 2 ^ 124) (hw : primeSum y + 1 < 2 ^ w) (hw2 : y * y < 2 ^ w)
    (hdv : ∀ x2 l, x2 ≤ x → 1 ≤ l → l ≤ π y → dv x2 l = .ok (x2 / prm l)) :
    Ok (omp R sched w dv x y (x / y) c primes sums) (fun r => S.Rep r (S2EasySum x y c : ℤ)) := by
  have hx13 : iroot 3 x ≤ y := by
    by_contra hc
    push Not at hc
    have := Nat.pow_le_pow_left (show y + 1 ≤ iroot 3 x from hc) 3
    have := iroot_le 3 x (by norm_num)
    omega
  unfold omp
  dsimp only
  refine Ok.bind (PiTable.build_ok y) (fun pi hpi => ?_)
  have C : Ctx x y w dv primes sums pi := ⟨hy1, hy63, hx, hw, hw2, hp, hs, hpi.2, hpi.1, hdv⟩
  have hmax := hpi.1
  have hsqy := Nat.sqrt_le_self y
  rw [PiTable.at_ok hpi.2 (by omega : Nat.sqrt y ≤ pi.max), PiTable.at_ok hpi.2 (by omega : iroot 3 x ≤ pi.max)]
  simp only [ok_bind]
  have h0 := S.zero
  refine (ompFor_ok S.Rep (fun _ => True) (leavesOf x y) S.add h0 h0 trivial (hsch 4 _ _)
    (fun b _ r z h1 h2 _ hr => ?_)).mono (fun r hr => ?_)
  · have hb : 1 ≤ b := by omega
    refine Ok.bind (body_ok S C hb ?_ ?_ hr) (fun r' hr' => Ok.pure ⟨trivial, hr'⟩)
    · have := pi_mono hx13; omega
    · rw [← Nat.sqrt_lt, lt_prm_iff_pi_lt hb]; omega
  · rw [zero_add, ← S2EasySum_eq hxy] at hr
    exact hr

/-! ## the two divisions -/

theorem dvFast_ok {primes : Vec ℕ} (hp : PrimeTable primes (π y)) (hy63 : y < 2 ^ 63) (x2 l : ℕ) (h1 : 1 ≤ l)
    (h2 : l ≤ π y) : dvFast primes x2 l = .ok (x2 / prm l) := by
  unfold dvFast
  rw [hp.rd h1 h2]
  simp only [ok_bind]
  have : prm l ≤ y := (prm_le_iff_le_pi h1).2 h2
  exact fastDivWide_ok 16 x2 (prm l) (prm_pos l) (by
    show prm l < 2 ^ 64
    omega)

theorem libdivideDivisors_ok {primes : Vec ℕ} (hp : PrimeTable primes (π y)) (hy63 : y < 2 ^ 63) :
    Ok (libdivideDivisors primes) (fun v => v.size = π y + 1 ∧ ∀ l, 1 ≤ l → l ≤ π y → ∀ n, n < 2 ^ 64 →
      Libdivide.run n (v.get l) = n / prm l) := by
  unfold libdivideDivisors
  rw [hp.1]
  refine (forUp_ok (fun i (v : Vec Libdivide.Divider) => v.size = i ∧ ∀ l, 1 ≤ l → l < i → ∀ n, n < 2 ^ 64 →
      Libdivide.run n (v.get l) = n / prm l) ⟨by simp, by omega⟩ (by omega) ?_).mono (fun v hv =>
        ⟨hv.1, fun l h1 h2 => hv.2 l h1 (by omega)⟩)
  intro i v h1 h2 hv
  rw [hp.rd h1 (by omega)]
  simp only [ok_bind]
  have hpy : prm i ≤ y := (prm_le_iff_le_pi h1).2 (by omega)
  have h2p := two_le_prm i
  obtain ⟨d, hd, _⟩ := Libdivide.libdivide_ok (n := 0) (d := prm i) (by norm_num) h2p (by omega)
  rw [hd]
  simp only [ok_bind]
  refine Ok.pure ⟨by simp [hv.1], fun l h3 h4 n hn => ?_⟩
  rw [Vec.get_push, hv.1]
  split
  · rename_i he
    subst he
    obtain ⟨d', hd', he'⟩ := Libdivide.libdivide_ok (n := n) (d := prm l) hn h2p (by omega)
    rw [hd] at hd'
    cases hd'
    exact he'
  · exact hv.2 l h3 (by omega) n hn

theorem dvLib_ok {primes : Vec ℕ} (hp : PrimeTable primes (π y)) {v : Vec Libdivide.Divider}
    (hv : v.size = π y + 1 ∧ ∀ l, 1 ≤ l → l ≤ π y → ∀ n, n < 2 ^ 64 → Libdivide.run n (v.get l) = n / prm l)
    (x2 l : ℕ) (h1 : 1 ≤ l) (h2 : l ≤ π y) : dvLib primes v x2 l = .ok (x2 / prm l) := by
  unfold dvLib
  split
  · rw [if_neg (by omega), Vec.rd_ok (by rw [hv.1]; omega)]
    simp only [ok_bind, pure_eq_ok]
    rw [hv.2 l h1 h2 x2 (by omega)]
  · rw [hp.rd h1 h2]
    simp only [ok_bind]
    exact cdiv_ok (prm_pos l)

/-! ## bound -/

theorem S2EasySum_le (x y c : ℕ) : S2EasySum x y c * 2 ≤ x * (x * (Nat.log 2 (y * y) + 1) + y * y) := by
  refine le_trans (Nat.mul_le_mul_right 2 ?_) (sum_leaf_le x (y * y))
  unfold S2EasySum
  have hinj : ∀ pq ∈ easyPairs x y c, ∀ pq' ∈ easyPairs x y c, pq.1 * pq.2 = pq'.1 * pq'.2 → pq = pq' := by
    rintro ⟨p, q⟩ h ⟨p', q'⟩ h' he
    unfold easyPairs at h h'
    simp only [Finset.mem_filter] at h h' he
    obtain ⟨_, hp, hq, hpq, _⟩ := h
    obtain ⟨_, hp', hq', hpq', _⟩ := h'
    have hd : p ∣ p' * q' := ⟨q, he.symm⟩
    rcases (Nat.Prime.dvd_mul hp).1 hd with h | h
    · rw [Nat.prime_dvd_prime_iff_eq hp hp'] at h
      subst h
      have := Nat.eq_of_mul_eq_mul_left hp.pos he
      rw [this]
    · rw [Nat.prime_dvd_prime_iff_eq hp hq'] at h
      subst h
      have hd' : p' ∣ p * q := ⟨p, by rw [he]⟩
      rw [Nat.mul_comm p' p] at he
      have := Nat.eq_of_mul_eq_mul_left hp.pos he
      omega
  calc ∑ pq ∈ easyPairs x y c, pq.1 * pq.2 * phiSum (x / (pq.1 * pq.2)) (π pq.1 - 1)
      ≤ ∑ pq ∈ easyPairs x y c, pq.1 * pq.2 * phiSum (x / (pq.1 * pq.2)) 0 :=
        Finset.sum_le_sum (fun pq _ => Nat.mul_le_mul_left _ (phiSum_anti (Nat.zero_le _)))
    _ = ∑ n ∈ (easyPairs x y c).image (fun pq => pq.1 * pq.2), n * phiSum (x / n) 0 := by
        rw [Finset.sum_image (fun a ha b hb h => hinj a ha b hb h)]
    _ ≤ ∑ n ∈ Icc 1 (y * y), n * phiSum (x / n) 0 := by
        apply Finset.sum_le_sum_of_subset
        intro n hn
        rw [Finset.mem_image] at hn
        obtain ⟨⟨p, q⟩, h, rfl⟩ := hn
        unfold easyPairs at h
        simp only [Finset.mem_filter, Finset.mem_product, Finset.mem_Icc] at h
        rw [Finset.mem_Icc]
        exact ⟨Nat.mul_pos h.1.1.1 h.1.2.1, Nat.mul_le_mul h.1.1.2 h.1.2.2⟩

end S2Easy
end PS
