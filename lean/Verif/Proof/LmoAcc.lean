import Verif.Model.Lmo
import Verif.Proof.S2Hard

/-!
# The accumulators of the Lagarias-Miller-Odlyzko algorithms and the loops over the leaves of one prime
-/

namespace PS
open Finset Cfg
open scoped Classical
open Res
local notation "π" => Nat.primeCounting

/-- What the proofs need about an accumulator type: `Rep r z` says that `r` stands for `z`; `Arg` holds for the
integers that may be converted and multiplied, `Acc` for the values that products and sums may take. -/
structure AccSpec (R : Type) [Res R] where
  Rep : R → ℤ → Prop
  Arg : ℤ → Prop
  Acc : ℤ → Prop
  ofInt : ∀ z, Arg z → Rep (ofInt z) z
  add : ∀ a b x y, Rep a x → Rep b y → Acc (x + y) → Rep (add a b) (x + y)
  sub : ∀ a b x y, Rep a x → Rep b y → Acc (x - y) → Rep (sub a b) (x - y)
  mul : ∀ a b x y, Rep a x → Rep b y → Arg x → Arg y → Acc (x * y) → Rep (mul a b) (x * y)
  acc_neg : ∀ z, Acc z → Acc (-z)

namespace AccSpec

/-- Words of `w` bits with wrapping arithmetic. -/
private theorem bv_ofInt (w : ℕ) (z : ℤ) : ((BitVec.ofInt w z).toInt - z) % 2 ^ w = 0 := by
  rw [BitVec.toInt_ofInt]
  have : ((2 ^ w : ℕ) : ℤ) = 2 ^ w := by push_cast; rfl
  rw [← this]
  have := Int.bmod_emod (x := z) (m := 2 ^ w)
  exact Int.emod_eq_zero_of_dvd (Int.ModEq.dvd this.symm)

/-- `int64_t` with wrapping arithmetic. -/
def w64 : AccSpec W64 where
  Rep r z := (r.toInt - z) % 2 ^ 64 = 0
  Arg _ := True
  Acc _ := True
  ofInt z _ := bv_ofInt 64 z
  add a b x y h1 h2 _ := by
    show ((a + b).toInt - (x + y)) % 2 ^ 64 = 0
    rw [BitVec.toInt_add, Int.bmod_def]; split <;> omega
  sub a b x y h1 h2 _ := by
    show ((a - b).toInt - (x - y)) % 2 ^ 64 = 0
    rw [BitVec.toInt_sub, Int.bmod_def]; split <;> omega
  mul a b x y h1 h2 _ _ _ := by
    show ((a * b).toInt - (x * y)) % 2 ^ 64 = 0
    obtain ⟨k, hk⟩ := Int.dvd_of_emod_eq_zero h1
    obtain ⟨l, hl⟩ := Int.dvd_of_emod_eq_zero h2
    have e : a.toInt * b.toInt = x * y + 2 ^ 64 * (k * b.toInt + x * l) := by
      have : a.toInt = x + 2 ^ 64 * k := by omega
      have h3 : b.toInt = y + 2 ^ 64 * l := by omega
      rw [this, h3]; ring
    rw [BitVec.toInt_mul, Int.bmod_def, e]
    generalize x * y = w
    generalize k * b.toInt + x * l = v
    split <;> omega
  acc_neg _ _ := trivial

/-- `int128_t` with wrapping arithmetic. -/
def w128 : AccSpec W128 where
  Rep r z := (r.toInt - z) % 2 ^ 128 = 0
  Arg _ := True
  Acc _ := True
  ofInt z _ := bv_ofInt 128 z
  add a b x y h1 h2 _ := LawfulRes.rep_add (R := W128) a b x y h1 h2
  sub a b x y h1 h2 _ := LawfulRes.rep_sub (R := W128) a b x y h1 h2
  mul a b x y h1 h2 _ _ _ := by
    show ((a * b).toInt - (x * y)) % 2 ^ 128 = 0
    obtain ⟨k, hk⟩ := Int.dvd_of_emod_eq_zero h1
    obtain ⟨l, hl⟩ := Int.dvd_of_emod_eq_zero h2
    have e : a.toInt * b.toInt = x * y + 2 ^ 128 * (k * b.toInt + x * l) := by
      have : a.toInt = x + 2 ^ 128 * k := by omega
      have h3 : b.toInt = y + 2 ^ 128 * l := by omega
      rw [this, h3]; ring
    rw [BitVec.toInt_mul, Int.bmod_def, e]
    generalize x * y = w
    generalize k * b.toInt + x * l = v
    split <;> omega
  acc_neg _ _ := trivial

/-- `int256_t`. -/
def i256 : AccSpec I256 where
  Rep := LawfulRes.Rep
  Arg z := -2 ^ 127 ≤ z ∧ z < 2 ^ 127
  Acc _ := True
  ofInt z h := LawfulRes.rep_ofInt z h.1 h.2
  add a b x y h1 h2 _ := LawfulRes.rep_add a b x y h1 h2
  sub a b x y h1 h2 _ := LawfulRes.rep_sub a b x y h1 h2
  mul a b x y h1 h2 h3 h4 _ := LawfulRes.rep_mul a b x y h1 h2 h3.1 (by omega) h4.1 (by omega)
  acc_neg _ _ := trivial

/-- Signed integers of `w` bits whose overflow is an error. -/
def checked (w : ℕ) : AccSpec (CInt w) where
  Rep r z := r = ⟨some z⟩
  Arg z := |z| < 2 ^ (w - 1)
  Acc z := |z| < 2 ^ (w - 1)
  ofInt z h := by
    rw [abs_lt] at h
    show CInt.chk z = _
    unfold CInt.chk
    rw [if_pos ⟨h.1.le, h.2⟩]
  add a b x y h1 h2 h := by
    rw [abs_lt] at h
    subst h1; subst h2
    show CInt.chk (x + y) = _
    unfold CInt.chk
    rw [if_pos ⟨h.1.le, h.2⟩]
  sub a b x y h1 h2 h := by
    rw [abs_lt] at h
    subst h1; subst h2
    show CInt.chk (x - y) = _
    unfold CInt.chk
    rw [if_pos ⟨h.1.le, h.2⟩]
  mul a b x y h1 h2 _ _ h := by
    rw [abs_lt] at h
    subst h1; subst h2
    show CInt.chk (x * y) = _
    unfold CInt.chk
    rw [if_pos ⟨h.1.le, h.2⟩]
  acc_neg z h := by rwa [abs_neg]

end AccSpec

namespace Lmo

variable {R : Type} [Res R] {σ : Type} {S : AccSpec R} {g : Cfg}

/-- The conditions on the numbers that occur in the algorithm. -/
structure AccHyp (S : AccSpec R) (g : Cfg) (L0 limit : ℕ) : Prop where
  coef : ∀ z : ℤ, |z| ≤ (g.y : ℤ) * g.y → S.Arg z
  phi : ∀ z : ℤ, 0 ≤ z → z ≤ (limit : ℤ) * limit → S.Arg z
  acc : (∀ z, S.Acc z) ∨ (L0 = 1 ∧ ∀ D, D ⊆ specialLeaves g.y g.c → S.Acc (∑ bm ∈ D, leafTerm g.x bm))

/-- The conditions while the leaves of `b` are processed. -/
structure LeafHyp (S : AccSpec R) (g : Cfg) (b low high : ℕ) (phib s2z : ℤ) : Prop where
  coef : ∀ m ∈ g.Lv b low high, S.Arg (coef b m) ∧ S.Arg (-coef b m)
  phi : ∀ m ∈ g.Lv b low high, S.Arg (phib + Rs b low (g.xn b m + 1))
  term : ∀ m ∈ g.Lv b low high, S.Acc (Cfg.coef b m * (phib + Rs b low (g.xn b m + 1)))
  acc : ∀ D, D ⊆ g.Lv b low high → S.Acc (s2z + ∑ m ∈ D, Cfg.coef b m * (phib + Rs b low (g.xn b m + 1)))

theorem abs_coef_le {b m low high : ℕ} (h : m ∈ g.Lv b low high) : |coef b m| ≤ (g.y : ℤ) * g.y := by
  have h1 := leaf_gt (mem_H.1 (mem_Lv.1 h).1).1
  have hp : prm b ≤ g.y := by omega
  unfold coef
  rw [abs_mul, abs_neg]
  have h2 : |mu m| ≤ 1 := ArithmeticFunction.abs_moebius_le_one
  have h3 : |((m : ℤ) * prm b)| = (m : ℤ) * prm b := abs_of_nonneg (by positivity)
  rw [h3]
  calc |mu m| * ((m : ℤ) * prm b) ≤ 1 * ((m : ℤ) * prm b) := by gcongr
    _ ≤ (g.y : ℤ) * g.y := by
      rw [one_mul]
      have h4 : m * prm b ≤ g.y * g.y := Nat.mul_le_mul h1.2.1 hp
      exact_mod_cast h4

/-- Every partial sum is the sum over a set of special leaves. -/
theorem partial_sum {low high N b : ℕ} {h : ℕ → ℕ} {s2z : ℤ} {muz phi : ℕ → ℤ} (hg : g.Good)
    (hi : SegInv coef g 1 h N s2z muz phi) (hb : h b = low) (hN : b < N) (h1 : 1 ≤ low)
    (hlive : g.Live low b) {D : Finset ℕ} (hD : D ⊆ g.Lv b low high) :
    ∃ E, E ⊆ specialLeaves g.y g.c ∧
      s2z + ∑ m ∈ D, Cfg.coef b m * (phi b + Rs b low (g.xn b m + 1)) = ∑ bm ∈ E, leafTerm g.x bm := by
  have hphib : phi b = Rs b 1 low := by
    have := hi.phiE b hN (by rw [hb]; exact hlive)
    rwa [hb] at this
  have hterm : ∀ b m, leafTerm g.x (b, m) = Cfg.coef b m * Rs b 1 (g.xn b m + 1) := by
    intro b m
    unfold leafTerm Cfg.coef
    rw [Rs_one]; rfl
  let T : ℕ → Finset ℕ := fun j => if j = b then g.Lv b 1 low ∪ D else g.Lv j 1 (h j)
  refine ⟨(specialLeaves g.y g.c).filter (fun p => p.2 ∈ T p.1), Finset.filter_subset _ _, ?_⟩
  have hmem : b ∈ Ioc g.c (π g.y) := Finset.mem_Ioc.2 ⟨hlive.1, hlive.2.1⟩
  rw [Finset.sum_finset_product' (s := Ioc g.c (π g.y)) (t := T) (f := fun j m => leafTerm g.x (j, m)) _ ?_]
  · rw [hi.s2E, ← Finset.add_sum_erase _ _ hmem, ← Finset.add_sum_erase (Ioc g.c (π g.y)) _ hmem]
    have e1 : ∑ j ∈ (Ioc g.c (π g.y)).erase b, ∑ m ∈ T j, leafTerm g.x (j, m) =
        ∑ j ∈ (Ioc g.c (π g.y)).erase b, g.A coef 1 j 1 (h j) := by
      apply Finset.sum_congr rfl
      intro j hj
      have : T j = g.Lv j 1 (h j) := if_neg (Finset.ne_of_mem_erase hj)
      rw [this]
      unfold A
      exact Finset.sum_congr rfl (fun m _ => hterm j m)
    have e2 : T b = g.Lv b 1 low ∪ D := if_pos rfl
    rw [e1, e2, Finset.sum_union, hb]
    · have e3 : ∑ m ∈ g.Lv b 1 low, leafTerm g.x (b, m) = g.A coef 1 b 1 low :=
        Finset.sum_congr rfl (fun m _ => hterm b m)
      have e4 : ∑ m ∈ D, leafTerm g.x (b, m) = ∑ m ∈ D, Cfg.coef b m * (phi b + Rs b low (g.xn b m + 1)) := by
        apply Finset.sum_congr rfl
        intro m hm
        have := mem_Lv.1 (hD hm)
        rw [hterm, hphib, Rs_add h1 (by omega)]
      rw [e3, e4]; ring
    · rw [Finset.disjoint_left]
      intro m h3 h4
      have := mem_Lv.1 h3
      have := mem_Lv.1 (hD h4)
      omega
  · rintro ⟨j, m⟩
    simp only [Finset.mem_filter]
    constructor
    · rintro ⟨h3, h4⟩
      have := leaf_gt (g := g) h3
      exact ⟨Finset.mem_Ioc.2 ⟨this.2.2.1, this.2.2.2⟩, h4⟩
    · rintro ⟨h3, h4⟩
      refine ⟨?_, h4⟩
      by_cases hj : j = b
      · subst hj
        have e2 : T j = g.Lv j 1 low ∪ D := if_pos rfl
        rw [e2, Finset.mem_union] at h4
        rcases h4 with h4 | h4
        · exact (mem_H.1 (mem_Lv.1 h4).1).1
        · exact (mem_H.1 (mem_Lv.1 (hD h4)).1).1
      · have e2 : T j = g.Lv j 1 (h j) := if_neg hj
        rw [e2] at h4
        exact (mem_H.1 (mem_Lv.1 h4).1).1

theorem leafHyp_of {L0 low high limit N b : ℕ} {h : ℕ → ℕ} {s2z : ℤ} {muz phi : ℕ → ℤ} (hA : AccHyp S g L0 limit)
    (hg : g.Good) (hi : SegInv coef g L0 h N s2z muz phi) (hb : h b = low) (hN : b < N) (h01 : 1 ≤ L0) (h0 : L0 ≤ low)
    (hlim : high ≤ limit) (hlive : g.Live low b) : LeafHyp S g b low high (phi b) s2z := by
  have hphi : ∀ m ∈ g.Lv b low high, S.Arg (phi b + Rs b low (g.xn b m + 1)) := by
    intro m hm
    have hx := mem_Lv.1 hm
    have h1 := hi.nonneg b hN
    have h2 := hi.le b hN
    rw [hb] at h2
    have h3 := Rs_nonneg (b := b) (lo := low) (hi := g.xn b m + 1)
    have h4 := Rs_le_Tot (b := b) (lo := low) (hi := g.xn b m + 1)
    have h5 := Tot_add (lo := L0) (mid := low) (hi := g.xn b m + 1) h0 (by omega)
    have h6 := Tot_lt (lo := L0) (hi := g.xn b m + 1)
    have h7 : ((g.xn b m + 1 : ℕ) : ℤ) ≤ limit := by exact_mod_cast (show g.xn b m + 1 ≤ limit by omega)
    have h8 : ((g.xn b m + 1 : ℕ) : ℤ) * ((g.xn b m + 1 : ℕ) : ℤ) ≤ (limit : ℤ) * limit := by gcongr
    exact hA.phi _ (by omega) (by omega)
  refine ⟨fun m hm => ⟨hA.coef _ (abs_coef_le hm), hA.coef _ (by rw [abs_neg]; exact abs_coef_le hm)⟩, hphi, ?_, ?_⟩
  · intro m hm
    rcases hA.acc with h1 | ⟨h1, h2⟩
    · exact h1 _
    · subst h1
      have h3 := (mem_H.1 (mem_Lv.1 hm).1).1
      have h4 := h2 {(b, m)} (by simpa using h3)
      rw [Finset.sum_singleton] at h4
      have hphib : phi b = Rs b 1 low := by
        have := hi.phiE b hN (by rw [hb]; exact hlive)
        rwa [hb] at this
      have := mem_Lv.1 hm
      rw [hphib, Rs_add h0 (by omega), Rs_one]
      exact h4
  · intro D hD
    rcases hA.acc with h1 | ⟨h1, h2⟩
    · exact h1 _
    · subst h1
      obtain ⟨E, hE, he⟩ := partial_sum hg hi hb hN h0 hlive hD
      rw [he]
      exact h2 E hE

theorem prod_ok {par : Bool} {n phi : ℤ} (h1 : S.Arg n) (h2 : S.Arg phi) (h3 : S.Acc (n * phi)) :
    S.Rep (prod par n phi) (n * phi) := by
  unfold prod
  split
  · rw [mul_comm] at h3 ⊢
    exact S.mul _ _ _ _ (S.ofInt _ h2) (S.ofInt _ h1) h2 h1 h3
  · exact S.mul _ _ _ _ (S.ofInt _ h1) (S.ofInt _ h2) h1 h2 h3

/-- The state of the loop over the leaves of `b`: the leaves in `D` are done, the remaining ones have
`m ≤ cur`.  `J s t` says that the state `s` of the summation may be advanced to position `t`. -/
structure LInv (S : AccSpec R) (g : Cfg) (par : Bool) (J : σ → ℕ → Prop) (off b low high : ℕ) (phib s2z muz : ℤ)
    (cur : ℕ) (D : Finset ℕ) (s : σ × Acc R) : Prop where
  sub : D ⊆ g.Lv b low high
  top : J s.1 (high - off)
  cur : ∀ m, m ∈ g.Lv b low high → m ≤ cur → J s.1 (g.xn b m - off + 1)
  s2 : S.Rep s.2.s2 (s2z + ∑ m ∈ D, coef b m * (phib + Rs b low (g.xn b m + 1)))
  mu : par = true → S.Rep s.2.mu (muz + ∑ m ∈ D, coef b m)

/-- What the loops require of the summation. -/
structure AdvOk (J : σ → ℕ → Prop) (adv : ℕ → σ → M (ℤ × σ)) (off b low high : ℕ) (phib : ℤ) : Prop where
  mono : ∀ s t t', J s t → t ≤ t' → J s t'
  adv : ∀ stop s, low ≤ off + stop → off + stop < high → J s (stop + 1) →
    Ok (adv stop s) (fun r => r.1 = phib + Rs b low (off + stop + 1) ∧ J r.2 (stop + 1))

theorem LInv.step {par : Bool} {J : σ → ℕ → Prop} {off b low high cur m : ℕ} {phib s2z muz : ℤ} {D : Finset ℕ}
    {s : σ × Acc R} {t : σ} {a : Acc R} {adv : ℕ → σ → M (ℤ × σ)} (hA : AdvOk J adv off b low high phib)
    (hl : LInv S g par J off b low high phib s2z muz cur D s)
    (hm : m ∈ g.Lv b low high) (hmD : m ∉ D) (hmo : off ≤ low) (ht : J t (g.xn b m - off + 1))
    (hs2 : S.Rep a.s2 (s2z + ∑ m ∈ D, coef b m * (phib + Rs b low (g.xn b m + 1)) + coef b m * (phib + Rs b low (g.xn b m + 1))))
    (hmu : par = true → S.Rep a.mu (muz + ∑ m ∈ D, coef b m + coef b m)) :
    LInv S g par J off b low high phib s2z muz m (insert m D) (t, a) := by
  have hx := mem_Lv.1 hm
  refine ⟨Finset.insert_subset hm hl.sub, hA.mono _ _ _ ht (by omega), ?_, ?_, ?_⟩
  · intro m' hm' hle
    have h1 := leaf_gt (mem_H.1 (mem_Lv.1 hm').1).1
    have := prm_pos b
    have := xn_anti (g := g) (b := b) (show 1 ≤ m' by omega) hle
    exact hA.mono _ _ _ ht (by omega)
  · rw [Finset.sum_insert hmD, show ∀ a b c : ℤ, a + (b + c) = a + c + b by intros; ring]
    exact hs2
  · intro h
    rw [Finset.sum_insert hmD, show ∀ a b c : ℤ, a + (b + c) = a + c + b by intros; ring]
    exact hmu h

/-- The tables of `mu` and of the least prime factor. -/
structure Tab (y : ℕ) (mu : Vec ℤ) (lpf : Vec ℕ) : Prop where
  muS : mu.size = y + 1
  lpfS : lpf.size = y + 1
  mu : ∀ m, 1 ≤ m → m ≤ y → mu.get m = ArithmeticFunction.moebius m
  lpf : ∀ m, 2 ≤ m → m ≤ y → lpf.get m = m.minFac

theorem Tab.cond {y m b : ℕ} {mu : Vec ℤ} {lpf : Vec ℕ} (h : Tab y mu lpf) (h1 : 2 ≤ m) (h2 : m ≤ y) :
    (mu.get m ≠ 0 ∧ prm b < lpf.get m) ↔ (Squarefree m ∧ ∀ q, q.Prime → q ∣ m → prm b < q) := by
  rw [h.mu m (by omega) h2, h.lpf m h1 h2, ArithmeticFunction.moebius_ne_zero_iff_squarefree]
  refine and_congr_right (fun _ => ⟨fun h3 q hq hd => lt_of_lt_of_le h3 (Nat.minFac_le_of_dvd hq.two_le hd), fun h3 => ?_⟩)
  exact h3 _ (Nat.minFac_prime (by omega)) (Nat.minFac_dvd m)

/-- How the leaves are found by the loop over `m`. -/
structure Range (g : Cfg) (b low high lo up : ℕ) : Prop where
  mem : ∀ m, m ∈ g.Lv b low high ↔ lo < m ∧ m ≤ up ∧ Squarefree m ∧ ∀ q, q.Prime → q ∣ m → prm b < q
  up : up ≤ g.y
  lo : g.y / prm b ≤ lo
  py : prm b ≤ g.y

theorem coef_lt {b low high m : ℕ} (h63 : g.y * g.y < 2 ^ 63) (hm : m ∈ g.Lv b low high) :
    -2 ^ 63 < coef b m ∧ coef b m < 2 ^ 63 := by
  have h1 := abs_coef_le hm
  have h2 : ((g.y : ℤ) * g.y) < 2 ^ 63 := by exact_mod_cast h63
  rw [abs_le] at h1
  omega

theorem leafA_ok {par : Bool} {J : σ → ℕ → Prop} {off b low high lo up m : ℕ} {phib s2z muz : ℤ} {mu : Vec ℤ} {lpf : Vec ℕ}
    {s : σ × Acc R} {adv : ℕ → σ → M (ℤ × σ)} (hA : AdvOk J adv off b low high phib)
    (hT : Tab g.y mu lpf) (hR : Range g b low high lo up) (hH : LeafHyp S g b low high phib s2z) (hoff : off ≤ low)
    (hpar : par = true → ∀ z, S.Acc z) (h63 : g.y * g.y < 2 ^ 63) (hm1 : lo < m) (hm2 : m ≤ up)
    (hl : LInv S g par J off b low high phib s2z muz m ((g.Lv b low high).filter (m < ·)) s) :
    Ok (leafA par mu lpf g.x off (prm b) adv m s)
      (LInv S g par J off b low high phib s2z muz (m - 1) ((g.Lv b low high).filter (m - 1 < ·))) := by
  have hp := prm_pos b
  have hup := hR.up
  have hlo1 : 1 ≤ lo := le_trans ((Nat.one_le_div_iff hp).2 hR.py) hR.lo
  have hcond := hT.cond (b := b) (m := m) (by omega) (by omega)
  have hmem := hR.mem m
  have hskip : m ∉ g.Lv b low high → LInv S g par J off b low high phib s2z muz (m - 1) ((g.Lv b low high).filter (m - 1 < ·)) s := by
    intro h
    have hset : (g.Lv b low high).filter (m - 1 < ·) = (g.Lv b low high).filter (m < ·) := by
      ext m'
      simp only [Finset.mem_filter]
      constructor
      · rintro ⟨h1, h2⟩
        refine ⟨h1, ?_⟩
        have : m' ≠ m := by rintro rfl; exact h h1
        omega
      · rintro ⟨h1, h2⟩; exact ⟨h1, by omega⟩
    rw [hset]
    exact ⟨hl.sub, hl.top, fun m' h1 h2 => hl.cur m' h1 (by omega), hl.s2, hl.mu⟩
  unfold leafA
  rw [Vec.rd_ok (by rw [hT.muS]; omega)]
  simp only [ok_bind]
  refine Ok.ite (fun hc1 => ?_) (fun hc1 => Ok.pure (hskip (fun h => hc1 (hcond.2 (hmem.1 h).2.2).1)))
  rw [Vec.rd_ok (by rw [hT.lpfS]; omega)]
  simp only [ok_bind]
  refine Ok.ite (fun hc2 => ?_) (fun hc2 => Ok.pure (hskip (fun h => hc2 (hcond.2 (hmem.1 h).2.2).2)))
  have hm : m ∈ g.Lv b low high := hmem.2 ⟨hm1, hm2, hcond.1 ⟨hc1, hc2⟩⟩
  have hx := mem_Lv.1 hm
  have hset : (g.Lv b low high).filter (m - 1 < ·) = insert m ((g.Lv b low high).filter (m < ·)) := by
    ext m'
    simp only [Finset.mem_filter, Finset.mem_insert]
    constructor
    · rintro ⟨h1, h2⟩
      by_cases h : m' = m
      · exact Or.inl h
      · exact Or.inr ⟨h1, by omega⟩
    · rintro (rfl | ⟨h1, h2⟩)
      · exact ⟨hm, by omega⟩
      · exact ⟨h1, by omega⟩
  rw [fit_ok (lt_of_le_of_lt (Nat.mul_le_mul hR.py (show m ≤ g.y by omega)) h63), ok_bind,
    cdiv_ok (Nat.mul_pos hp (by omega)), show g.x / (prm b * m) = g.xn b m by unfold xn; rw [Nat.mul_comm]]
  simp only [ok_bind]
  rw [csub_ok (by omega)]
  simp only [ok_bind]
  refine Ok.bind (hA.adv _ _ (by omega) (by omega) (hl.cur m hm le_rfl)) ?_
  rintro ⟨phi, t⟩ ⟨h1, h2⟩
  dsimp only at h1 h2 ⊢
  rw [show off + (g.xn b m - off) + 1 = g.xn b m + 1 by omega] at h1
  have hco : mu.get m * m * prm b = - coef b m := by
    unfold coef PS.mu
    rw [hT.mu m (by omega) (by omega)]; ring
  have hcl := coef_lt h63 hm
  rw [hset, hco, fitI_ok (by omega) (by omega), ok_bind, h1]
  have hD : m ∉ (g.Lv b low high).filter (m < ·) := by simp
  have hst := hl.step hA (a := subLeaf par (phib + Rs b low (g.xn b m + 1)) (-coef b m) s.2) hm hD hoff h2 ?_ ?_
  · exact Ok.pure ⟨hst.sub, hst.top, fun m' h1 h2 => hst.cur m' h1 (by omega), hst.s2, hst.mu⟩
  · have h3 := hH.term m hm
    have h4 := hH.acc (insert m ((g.Lv b low high).filter (m < ·))) (Finset.insert_subset hm (Finset.filter_subset _ _))
    rw [Finset.sum_insert hD, show ∀ a b c : ℤ, a + (b + c) = a + c + b by intros; ring] at h4
    have h5 := prod_ok (par := par) (hH.coef m hm).2 (hH.phi m hm) (by
      have := S.acc_neg _ h3
      rwa [← neg_mul] at this)
    have h6 := S.sub _ _ _ _ hl.s2 h5 (by rw [neg_mul, sub_neg_eq_add]; exact h4)
    rw [neg_mul, sub_neg_eq_add] at h6
    exact h6
  · intro hpr
    have h6 := S.sub _ _ _ _ (hl.mu hpr) (S.ofInt _ (hH.coef m hm).2) (hpar hpr _)
    rw [sub_neg_eq_add] at h6
    show S.Rep (if par then _ else _) _
    rw [if_pos hpr]
    exact h6

theorem LInv.init {par : Bool} {J : σ → ℕ → Prop} {off b low high cur : ℕ} {phib s2z muz : ℤ} {s : σ × Acc R}
    (hJ : J s.1 (high - off)) (hJ' : ∀ t, J s.1 (t + 1)) (hs2 : S.Rep s.2.s2 s2z) (hmu : par = true → S.Rep s.2.mu muz) :
    LInv S g par J off b low high phib s2z muz cur ∅ s :=
  ⟨Finset.empty_subset _, hJ, fun m _ _ => hJ' _, by simpa using hs2, fun h => by simpa using hmu h⟩

/-- The loop over `m`. -/
theorem leavesA_ok {par : Bool} {J : σ → ℕ → Prop} {off b low high lo up : ℕ} {phib s2z muz : ℤ} {mu : Vec ℤ} {lpf : Vec ℕ}
    {s : σ × Acc R} {adv : ℕ → σ → M (ℤ × σ)} (hA : AdvOk J adv off b low high phib)
    (hT : Tab g.y mu lpf) (hR : Range g b low high lo up) (hH : LeafHyp S g b low high phib s2z) (hoff : off ≤ low)
    (hpar : par = true → ∀ z, S.Acc z) (h63 : g.y * g.y < 2 ^ 63)
    (hJ : J s.1 (high - off)) (hJ' : ∀ t, J s.1 (t + 1)) (hs2 : S.Rep s.2.s2 s2z) (hmu : par = true → S.Rep s.2.mu muz) :
    Ok (forDown up lo s (fun m s => leafA par mu lpf g.x off (prm b) adv m s))
      (LInv S g par J off b low high phib s2z muz lo (g.Lv b low high)) := by
  have hfull : ∀ k, k ≤ lo → (g.Lv b low high).filter (k < ·) = g.Lv b low high := by
    intro k hk
    rw [Finset.filter_eq_self]
    intro m hm
    have := ((hR.mem m).1 hm).1
    omega
  have hempty : ∀ k, up ≤ k → (g.Lv b low high).filter (k < ·) = ∅ := by
    intro k hk
    rw [Finset.filter_eq_empty_iff]
    intro m hm hcon
    have := ((hR.mem m).1 hm).2.1
    omega
  rcases Nat.lt_or_ge up lo with h | h
  · unfold forDown
    rw [if_neg (by omega)]
    refine Ok.ok ?_
    rw [← hfull lo le_rfl, hempty lo h.le]
    exact LInv.init hJ hJ' hs2 hmu
  · refine (forDown_ok (fun m s => LInv S g par J off b low high phib s2z muz m ((g.Lv b low high).filter (m < ·)) s)
      (by rw [hempty up le_rfl]; exact LInv.init hJ hJ' hs2 hmu) h (fun m s h1 h2 h3 => ?_)).mono (fun r hr => ?_)
    · exact leafA_ok hA hT hR hH hoff hpar h63 h1 h2 h3
    · rwa [hfull lo le_rfl] at hr

/-- How the leaves are found by the loop over the primes. -/
structure RangeB (g : Cfg) (b low high lo up : ℕ) : Prop where
  mem : ∀ q, q ∈ g.Lv b low high ↔ q.Prime ∧ lo < q ∧ q ≤ up
  bu : b ≤ π up
  lo : prm b ≤ lo

/-- The loop over the primes. -/
theorem leavesB_ok {par : Bool} {J : σ → ℕ → Prop} {off b low high lo up n : ℕ} {phib s2z muz : ℤ} {primes : Vec ℕ}
    {s : σ × Acc R} {adv : ℕ → σ → M (ℤ × σ)} (hA : AdvOk J adv off b low high phib)
    (hP : PrimeTable primes n) (hn : π up ≤ n) (hR : RangeB g b low high lo up) (hH : LeafHyp S g b low high phib s2z)
    (hb1 : 1 ≤ b) (hoff : off ≤ low) (hpar : par = true → ∀ z, S.Acc z) (h63 : g.y * g.y < 2 ^ 63)
    (hJ : J s.1 (high - off)) (hJ' : ∀ t, J s.1 (t + 1)) (hs2 : S.Rep s.2.s2 s2z) (hmu : par = true → S.Rep s.2.mu muz) :
    Ok (leavesB par primes g.x off (prm b) lo (π up) adv s)
      (fun r => ∃ cur, LInv S g par J off b low high phib s2z muz cur (g.Lv b low high) r) := by
  have hp := prm_pos b
  have hempty : (g.Lv b low high).filter (π up < π ·) = ∅ := by
    rw [Finset.filter_eq_empty_iff]
    intro q hq hcon
    have h1 := ((hR.mem q).1 hq).2.2
    have := pi_mono h1
    omega
  unfold leavesB
  refine loop_ok (fun (s : ℕ × σ × Acc R) => b ≤ s.1 ∧ s.1 ≤ π up ∧
      LInv S g par J off b low high phib s2z muz (prm s.1) ((g.Lv b low high).filter (s.1 < π ·)) s.2)
    (fun s => s.1) _ ⟨hR.bu, le_rfl, by rw [hempty]; exact LInv.init hJ hJ' hs2 hmu⟩ (by dsimp only; omega) ?_
  rintro ⟨l, s⟩ ⟨h1, h2, hl⟩
  dsimp only at h1 h2 hl ⊢
  rw [hP.rd (by omega) (by omega)]
  simp only [ok_bind]
  refine Ok.ite (fun hcd => ?_) (fun hcd => ?_)
  · have hbl : b < l := by
      by_contra hcon
      have : l = b := by omega
      subst this
      have := hR.lo
      omega
    have hm : prm l ∈ g.Lv b low high := by
      rw [hR.mem]
      exact ⟨prm_prime l, hcd, (prm_le_iff_le_pi (by omega)).2 h2⟩
    have hpl : π (prm l) = l := pi_prm (by omega)
    have hset : (g.Lv b low high).filter (l - 1 < π ·) = insert (prm l) ((g.Lv b low high).filter (l < π ·)) := by
      ext q
      simp only [Finset.mem_filter, Finset.mem_insert]
      constructor
      · rintro ⟨a1, a2⟩
        by_cases hql : π q = l
        · left
          rw [← hql, prm_pi ((hR.mem q).1 a1).1]
        · right; exact ⟨a1, by omega⟩
      · rintro (rfl | ⟨a1, a2⟩)
        · exact ⟨hm, by omega⟩
        · exact ⟨a1, by omega⟩
    have hx := mem_Lv.1 hm
    have hgt := leaf_gt (mem_H.1 hx.1).1
    rw [fit_ok (lt_of_le_of_lt (Nat.mul_le_mul (show prm b ≤ g.y by omega) hgt.2.1) h63), ok_bind,
      cdiv_ok (Nat.mul_pos hp (prm_pos l)), show g.x / (prm b * prm l) = g.xn b (prm l) by unfold xn; rw [Nat.mul_comm]]
    simp only [ok_bind]
    rw [csub_ok (by omega)]
    simp only [ok_bind]
    refine Ok.bind (hA.adv _ _ (by omega) (by omega) (hl.cur _ hm le_rfl)) ?_
    rintro ⟨phi, t⟩ ⟨h3, h4⟩
    dsimp only at h3 h4 ⊢
    rw [show off + (g.xn b (prm l) - off) + 1 = g.xn b (prm l) + 1 by omega] at h3
    have hco : (prm l : ℤ) * prm b = coef b (prm l) := by
      unfold coef
      rw [show mu (prm l) = -1 from ArithmeticFunction.moebius_apply_prime (prm_prime l)]
      ring
    have hD : prm l ∉ (g.Lv b low high).filter (l < π ·) := by simp only [Finset.mem_filter, hpl]; omega
    have hst := hl.step hA (a := addLeaf par (phib + Rs b low (g.xn b (prm l) + 1)) (coef b (prm l)) s.2) hm hD hoff h4 ?_ ?_
    · have hcl := coef_lt h63 hm
      rw [hco, fitI_ok (by omega) (by omega), ok_bind, h3]
      refine Ok.pure ⟨⟨?_, ?_, ?_⟩, ?_⟩
      · show b ≤ l - 1; omega
      · show l - 1 ≤ π up; omega
      · dsimp only
        rw [hset]
        have := prm_le_prm (i := l - 1) (j := l) (by omega)
        exact ⟨hst.sub, hst.top, fun m' h1 h2 => hst.cur m' h1 (by omega), hst.s2, hst.mu⟩
      · show l - 1 < l; omega
    · have h7 := hH.acc (insert (prm l) ((g.Lv b low high).filter (l < π ·))) (Finset.insert_subset hm (Finset.filter_subset _ _))
      rw [Finset.sum_insert hD, show ∀ a b c : ℤ, a + (b + c) = a + c + b by intros; ring] at h7
      exact S.add _ _ _ _ hl.s2 (prod_ok (hH.coef _ hm).1 (hH.phi _ hm) (hH.term _ hm)) h7
    · intro hpr
      show S.Rep (if par then _ else _) _
      rw [if_pos hpr]
      exact S.add _ _ _ _ (hl.mu hpr) (S.ofInt _ (hH.coef _ hm).1) (hpar hpr _)
  · refine Ok.pure ⟨prm l, ?_⟩
    have hset : (g.Lv b low high).filter (l < π ·) = g.Lv b low high := by
      rw [Finset.filter_eq_self]
      intro q hq
      have h4 := ((hR.mem q).1 hq)
      by_contra hcon
      push Not at hcon
      have := prm_le_prm (i := π q) (j := l) hcon
      rw [prm_pi h4.1] at this
      omega
    rw [hset] at hl
    exact hl

/-! ### Summation -/

/-- The sieve marks the numbers without prime factor among the first `b - 1`; only every `step`-th position is
read. -/
structure SvR (step off low high b : ℕ) (rd : ℕ → M Bool) : Prop where
  rd : ∀ i, i % step = 0 → low ≤ off + i → off + i < high → ∃ v, rd i = .ok v ∧ (v = true ↔ Rough (b - 1) (off + i))
  gap : ∀ i, i % step ≠ 0 → ¬ Rough (b - 1) (off + i)
  step : step = 1 ∨ step = 2

/-- `phi` is the sum up to position `i`. -/
def JS (step off low b : ℕ) (phib : ℤ) (s : ℕ × ℤ) (t : ℕ) : Prop :=
  s.1 % step = 0 ∧ low ≤ off + s.1 ∧ s.1 < t + step ∧ s.2 = phib + Rs b low (off + s.1)

theorem Rs_succ {b lo hi : ℕ} (h : lo ≤ hi) : Rs b lo (hi + 1) = Rs b lo hi + (if Rough (b - 1) hi then (hi : ℤ) else 0) := by
  rw [← Rs_add h (Nat.le_succ hi)]
  congr 1
  unfold Rs
  rw [Finset.sum_filter, Nat.succ_eq_add_one, Nat.Ico_succ_singleton, Finset.sum_singleton]

/-- The partial sums of the summation fit in `w` bits. -/
def PhiFit (w b low high : ℕ) (phib : ℤ) : Prop :=
  ∀ t, low ≤ t → t ≤ high → 0 ≤ phib + Rs b low t ∧ phib + Rs b low t < 2 ^ w

theorem phiFit_of {w L0 low high limit N b : ℕ} {k : ℕ → ℕ → ℤ} {h : ℕ → ℕ} {s2z : ℤ} {muz phi : ℕ → ℤ}
    (hi : SegInv k g L0 h N s2z muz phi) (hb : h b = low) (hN : b < N) (h0 : L0 ≤ low)
    (hlim : high ≤ limit) (hll : limit * limit < 2 ^ w) : PhiFit w b low high (phi b) := by
  intro t ht1 ht2
  have h1 := hi.nonneg b hN
  have h2 := hi.le b hN
  rw [hb] at h2
  have h3 := Rs_nonneg (b := b) (lo := low) (hi := t)
  have h4 := Rs_le_Tot (b := b) (lo := low) (hi := t)
  have h5 := Tot_add (lo := L0) (mid := low) (hi := t) h0 ht1
  have h6 := Tot_lt (lo := L0) (hi := t)
  have h7 : ((t : ℕ) : ℤ) ≤ limit := by exact_mod_cast (show t ≤ limit by omega)
  have h8 : (t : ℤ) * t ≤ (limit : ℤ) * limit := by gcongr
  have h9 : (limit : ℤ) * limit < 2 ^ w := by exact_mod_cast hll
  exact ⟨by omega, by linarith⟩

theorem sumTo_ok {w step off low high b hi : ℕ} {phib : ℤ} {rd : ℕ → M Bool} {s : ℕ × ℤ} (hs : SvR step off low high b rd)
    (h63 : high + 2 < 2 ^ 63) (hphi : PhiFit w b low high phib)
    (h : JS step off low b phib s hi) (hhi : off + hi ≤ high) (hlo : low ≤ off + hi) :
    Ok (sumTo w step rd off hi s) (fun r => JS step off low b phib r hi ∧ r.2 = phib + Rs b low (off + hi)) := by
  unfold sumTo
  have hstep := hs.step
  refine loop_ok (fun (s : ℕ × ℤ) => JS step off low b phib s hi) (fun s => hi - s.1) _ h (by omega) ?_
  rintro ⟨i, phi⟩ ⟨h1, h2, h3, h4⟩
  dsimp only at h1 h2 h3 h4 ⊢
  refine Ok.ite (fun hc => ?_) (fun hc => ?_)
  · obtain ⟨v, hv, hv2⟩ := hs.rd i h1 h2 (by omega)
    rw [hv]
    simp only [ok_bind]
    have hterm : ((off + i : ℕ) : ℤ) * (if v = true then 1 else 0) = if Rough (b - 1) (off + i) then ((off + i : ℕ) : ℤ) else 0 := by
      by_cases hr : Rough (b - 1) (off + i)
      · rw [if_pos hr, if_pos (hv2.2 hr), mul_one]
      · rw [if_neg hr, if_neg (fun hh => hr (hv2.1 hh)), mul_zero]
    have hfit := hphi (off + i + 1) (by omega) (by omega)
    rw [Rs_succ h2, ← hterm, ← add_assoc, ← h4] at hfit
    have hw0 : -2 ^ w ≤ (0:ℤ) := by
      have : (0:ℤ) < 2 ^ w := by positivity
      omega
    rw [fit_ok (by omega), ok_bind, fitI_ok (hw0.trans hfit.1) hfit.2, ok_bind, fit_ok (by omega), ok_bind]
    refine Ok.pure ⟨⟨?_, ?_, ?_, ?_⟩, ?_⟩
    · show (i + step) % step = 0
      rw [Nat.add_mod_right]; exact h1
    · show low ≤ off + (i + step); omega
    · show i + step < hi + step; omega
    · show phi + _ = phib + Rs b low (off + (i + step))
      rw [hterm, h4]
      rcases hstep with rfl | rfl
      · rw [← Nat.add_assoc, Rs_succ h2]; ring
      · have hgap := hs.gap (i + 1) (by omega)
        rw [show off + (i + 2) = off + (i + 1) + 1 by ring, Rs_succ (by omega), if_neg hgap, add_zero,
          ← Nat.add_assoc, Rs_succ h2]
        ring
    · show hi - (i + step) < hi - i; omega
  · refine Ok.pure ⟨⟨h1, h2, h3, h4⟩, ?_⟩
    show phi = _
    rw [h4]
    rcases Nat.lt_or_ge hi i with h5 | h5
    · have : step = 2 := by omega
      subst this
      have hi1 : i = hi + 1 := by omega
      subst hi1
      have hgap := hs.gap hi (by omega)
      rw [← Nat.add_assoc, Rs_succ hlo, if_neg hgap, add_zero]
    · rw [show i = hi by omega]

theorem advance_ok {w step off low high b : ℕ} {phib : ℤ} {rd : ℕ → M Bool} (h63 : high + 2 < 2 ^ 63)
    (hphi : PhiFit w b low high phib) (hs : SvR step off low high b rd) :
    AdvOk (JS step off low b phib) (fun stop s => advance w step rd off stop s) off b low high phib := by
  refine ⟨?_, ?_⟩
  · rintro s t t' ⟨h1, h2, h3, h4⟩ hle
    exact ⟨h1, h2, by omega, h4⟩
  · intro stop s h1 h2 h3
    unfold advance
    refine Ok.bind (sumTo_ok hs h63 hphi h3 (by omega) (by omega)) (fun r hr => Ok.pure ⟨?_, hr.1⟩)
    rw [hr.2, ← Nat.add_assoc]

end Lmo
end PS
