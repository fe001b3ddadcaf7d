import Verif.Model.Phi
import Verif.Proof.Tables
import Verif.Proof.Omp

namespace PS
open Finset
open scoped Classical
local notation "π" => Nat.primeCounting

theorem phi_telescope (x : ℕ) {c a : ℕ} (h : c ≤ a) :
    phi x c = phi x a + ∑ i ∈ Ico c a, phi (x / prm (i + 1)) i := by
  induction a, h using Nat.le_induction with
  | base => simp
  | succ k hk ih => rw [ih, phi_succ, Finset.sum_Ico_succ_top hk]; ring

theorem lt_sqrt_mul {x : ℕ} : x < (Nat.sqrt x + 1) * (Nat.sqrt x + 1) := Nat.sqrt_lt.1 (Nat.lt_succ_self _)

theorem phi_leaf_one {x i : ℕ} (h1 : prm (i + 1) ≤ x) (h2 : x < prm (i + 1) * prm (i + 1)) :
    phi (x / prm (i + 1)) i = 1 :=
  phi_eq_one (Nat.div_pos h1 (prm_pos _)) (Nat.div_lt_of_lt_mul h2)

/-- `φ(x, a) = φ(x, c) - Σ_{i=c}^{k-1} φ(x / p_{i+1}, i) - (a - k)` if all the leaves with `i ≥ k` are 1. -/
theorem phi_cut {x c k a : ℕ} (hck : c ≤ k) (hka : k ≤ a) (hx : ∀ i, k ≤ i → i < a → prm (i + 1) ≤ x)
    (hk : ∀ i, k ≤ i → i < a → x < prm (i + 1) * prm (i + 1)) :
    phi x c = phi x a + (a - k) + ∑ i ∈ Ico c k, phi (x / prm (i + 1)) i := by
  rw [phi_telescope x hck, phi_telescope x hka]
  have : ∑ i ∈ Ico k a, phi (x / prm (i + 1)) i = ∑ i ∈ Ico k a, 1 := by
    apply Finset.sum_congr rfl
    intro i hi
    rw [Finset.mem_Ico] at hi
    exact phi_leaf_one (hx i hi.1 hi.2) (hk i hi.1 hi.2)
  rw [this]; simp; try ring

theorem phi_pix {x a : ℕ} (hx : 1 ≤ x) (h1 : a ≤ π x) (h2 : x < prm (a + 1) * prm (a + 1)) :
    (phi x a : ℤ) = (π x : ℤ) - a + 1 := by
  have h := phi_cut (x := x) (c := a) (k := a) (a := π x) le_rfl h1
    (fun i _ hi => (prm_le_iff_le_pi (by omega)).2 (by omega))
    (fun i hi _ => lt_of_lt_of_le h2 (by
      have := prm_le_prm (i := a + 1) (j := i + 1) (by omega)
      exact Nat.mul_le_mul this this))
  rw [phi_eq_one hx ((lt_prm_iff_pi_lt (i := π x + 1) (by omega)).2 (by omega))] at h
  simp at h
  omega

theorem Vec.size_resize {α : Type} [Inhabited α] (v : Vec α) (n : ℕ) (x : α) : (v.resize n x).size = n := by
  simp [Vec.resize]

theorem Vec.get_resize {α : Type} [Inhabited α] (v : Vec α) (n : ℕ) (x : α) (i : ℕ) (h : i < n) :
    (v.resize n x).get i = if i < v.size then v.get i else x := by
  unfold Vec.resize
  rw [Vec.get_ofFn _ _ _ h]

namespace Phi

/-- Every non-zero cache entry is the value of `φ`. -/
def CacheOk (c : Cache) : Prop :=
  c.size = 100 ∧ ∀ a, a < 100 → ∀ x, x < (c.get a).size → (c.get a).get x = 0 ∨ (c.get a).get x = PS.phi x a

/-- The tables are right and the primes are values of `int32_t`. -/
structure EnvOk (E : Env) (A : ℕ) : Prop where
  small : prm A < 2 ^ 31
  primes : PrimeTable E.primes A
  pi : E.pi.Valid
  tiny : PhiTiny.Valid E.tiny 6

theorem lt_prm_self {a : ℕ} (ha : 1 ≤ a) : a < prm a := by
  induction a, ha using Nat.le_induction with
  | base => rw [prm_one]; omega
  | succ n hn ih => have := prm_lt_prm (i := n) (j := n + 1) (by omega) (by omega); omega

theorem isPix_ok {E : Env} {A : ℕ} (hE : EnvOk E A) {x a : ℕ} (ha : a + 1 ≤ A) :
    isPix E x a = .ok (decide (x ≤ E.pi.max ∧ x < prm (a + 1) * prm (a + 1))) := by
  unfold isPix PiTable.size
  split
  · rename_i h
    have hp := prm_le_prm ha
    have hs := hE.small
    rw [hE.primes.rd (by omega) ha, ok_bind, fit_ok (by nlinarith)]
    simp only [ok_bind, pure_eq_ok]
    congr 1
    simp [show x ≤ E.pi.max by omega]
  · rename_i h
    simp only [pure_eq_ok]
    congr 1
    simp; omega

theorem lookup_ok {c : Cache} (hc : CacheOk c) (x a : ℕ) :
    Ok (lookup c x a) (fun v => v = 0 ∨ v = PS.phi x a) := by
  unfold lookup
  refine Ok.ite (fun h => ?_) (fun _ => Ok.pure (Or.inl rfl))
  rw [Vec.rd_ok h]
  simp only [ok_bind]
  refine Ok.ite (fun h2 => ?_) (fun _ => Ok.pure (Or.inl rfl))
  rw [Vec.rd_ok h2]
  exact Ok.ok (hc.2 a (by rw [← hc.1]; exact h) x h2)

theorem updateCache_ok {c : Cache} (hc : CacheOk c) {x a : ℕ} {sum : ℤ} (hs : sum.natAbs = PS.phi x a) :
    Ok (updateCache c x a sum) CacheOk := by
  unfold updateCache
  refine Ok.ite (fun h => ?_) (fun _ => Ok.pure hc)
  rw [Vec.rd_ok h.1]
  simp only [ok_bind]
  have ha : a < 100 := by rw [← hc.1]; exact h.1
  have hsz : x < (if x ≥ (c.get a).size then (c.get a).resize (x + 1) 0 else c.get a).size := by
    split
    · rw [Vec.size_resize]; omega
    · omega
  refine Ok.bind (wr_map rfl hsz _) (fun row hrow => ?_)
  refine (wr_map hc.1 ha _).mono (fun c' hc' => ⟨hc'.1, fun a' ha' x' hx' => ?_⟩)
  rw [hc'.2] at hx' ⊢
  by_cases hq : a' = a
  · rw [if_pos hq] at hx' ⊢
    subst hq
    rw [hrow.2]
    split
    · rename_i e
      right
      rw [hs, e, Nat.mod_eq_of_lt]
      have := phi_le_self x a'
      omega
    · rw [hrow.1] at hx'
      split at hx'
      · rename_i hge
        rw [Vec.size_resize] at hx'
        rw [if_pos hge, Vec.get_resize _ _ _ _ hx']
        split
        · rename_i hlt; exact hc.2 a' ha' x' hlt
        · exact Or.inl rfl
      · rename_i hge
        rw [if_neg hge]
        exact hc.2 a' ha' x' hx'
  · rw [if_neg hq] at hx' ⊢
    exact hc.2 a' ha' x' hx'

theorem phiRec_ok {E : Env} {A : ℕ} (hE : EnvOk E A) : ∀ (fuel : ℕ) (sign : ℤ) (x a : ℕ) (c : Cache),
    a < fuel → a + 1 ≤ A → 1 ≤ x → (sign = 1 ∨ sign = -1) → CacheOk c → Nat.sqrt x ≤ E.pi.max → x < 2 ^ 63 →
    Ok (phiRec E fuel sign x a c) (fun r => r.1 = PS.phi x a * sign ∧ CacheOk r.2) := by
  intro fuel
  induction fuel with
  | zero => intro _ _ _ _ h; omega
  | succ fuel ih =>
    intro sign x a c hfuel haA hx hsign hc hsq hx63
    unfold phiRec
    by_cases ha0 : a = 0
    · subst ha0
      obtain ⟨t1, t2, t3⟩ := hE.primes
      rw [Vec.rd_ok (by omega), t2]
      simp only [ok_bind]
      rw [if_neg (by omega), if_pos (by decide), PhiTiny.phiTiny_ok hE.tiny (by omega) _ hx63]
      exact Ok.ok ⟨rfl, hc⟩
    rw [hE.primes.rd (by omega) (by omega)]
    simp only [ok_bind]
    refine Ok.ite (fun h => Ok.pure ⟨?_, hc⟩) (fun hpa => ?_)
    · rw [phi_eq_one hx (lt_of_le_of_lt h (prm_lt_prm (by omega) (by omega)))]; simp
    refine Ok.ite (fun h => ?_) (fun htiny => ?_)
    · have : a ≤ 6 := by simpa [PhiTiny.isPhiTiny] using h
      rw [PhiTiny.phiTiny_ok hE.tiny this _ hx63]
      exact Ok.ok ⟨rfl, hc⟩
    have ha6 : 6 < a := by simpa [PhiTiny.isPhiTiny] using htiny
    rw [isPix_ok hE haA]
    simp only [ok_bind]
    push Not at hpa
    refine Ok.ite (fun h => ?_) (fun hpix => ?_)
    · rw [decide_eq_true_eq] at h
      rw [PiTable.at_ok hE.pi h.1]
      refine Ok.ok ⟨?_, hc⟩
      rw [phi_pix hx ((prm_le_iff_le_pi (by omega)).1 (by omega)) h.2]
    refine Ok.bind (lookup_ok hc x a) (fun v hv => ?_)
    refine Ok.ite (fun h => Ok.pure ⟨by rcases hv with e | e <;> simp_all, hc⟩) (fun _ => ?_)
    rw [PhiTiny.getC_ok]
    simp only [ok_bind]
    -- the cut-off index
    rw [if_pos (by unfold PiTable.size; omega), PiTable.at_ok hE.pi hsq]
    simp only [ok_bind, pure_eq_ok]
    obtain ⟨k, hk⟩ : ∃ k, k = min (π (Nat.sqrt x)) a := ⟨_, rfl⟩
    rw [← hk]
    have k1 : min 6 (π (Nat.sqrt x)) ≤ k := by omega
    have k2 : k ≤ a := by omega
    have k4 : k < a → π (Nat.sqrt x) ≤ k := by omega
    have hax : a ≤ x := by
      have := lt_prm_self (a := a) (by omega); omega
    rw [PhiTiny.phiTiny_ok hE.tiny (by omega) _ hx63,
      fitI_ok (by rcases hsign with e | e <;> subst e <;> omega) (by rcases hsign with e | e <;> subst e <;> omega)]
    simp only [ok_bind]
    have hphi0 := phi_le_self x (min 6 (π (Nat.sqrt x)))
    rw [fitI_ok (by rcases hsign with e | e <;> subst e <;> omega) (by rcases hsign with e | e <;> subst e <;> omega)]
    simp only [ok_bind]
    have hcut := phi_cut (x := x) (c := min 6 (π (Nat.sqrt x))) (k := k) (a := a) k1 k2
      (fun i h1 h2 => by
        have := prm_le_prm (i := i + 1) (j := a) (by omega)
        omega)
      (fun i h1 h2 => by
        have h3 : Nat.sqrt x < prm (i + 1) := (lt_prm_iff_pi_lt (by omega)).2 (by have := k4 (by omega); omega)
        exact lt_of_lt_of_le lt_sqrt_mul (Nat.mul_le_mul (by omega) (by omega)))
    refine Ok.bind (forUp_ok (fun i (r : ℤ × Cache) => CacheOk r.2 ∧ r.1 = ((k : ℤ) - a) * sign +
        (PS.phi x (min 6 (π (Nat.sqrt x))) : ℤ) * sign -
        (∑ j ∈ Ico (min 6 (π (Nat.sqrt x))) i, (PS.phi (x / prm (j + 1)) j : ℤ)) * sign)
        ⟨hc, by simp⟩ k1 ?_) ?_
    · rintro i ⟨s, c'⟩ h1 h2 ⟨hc', hs⟩
      simp only at hs hc' ⊢
      rw [hE.primes.rd (by omega) (by omega)]
      simp only [ok_bind]
      rw [cdiv_ok (prm_pos _), ok_bind, isPix_ok hE (by omega)]
      simp only [ok_bind]
      have hle : prm (i + 1) ≤ x := by
        have := prm_le_prm (i := i + 1) (j := a) (by omega)
        omega
      have hx2 : 1 ≤ x / prm (i + 1) := Nat.div_pos hle (prm_pos _)
      have hgoal : ∀ t : ℤ, t = PS.phi (x / prm (i + 1)) i * -sign → s + t = ((k : ℤ) - a) * sign +
          (PS.phi x (min 6 (π (Nat.sqrt x))) : ℤ) * sign -
          (∑ j ∈ Ico (min 6 (π (Nat.sqrt x))) (i + 1), (PS.phi (x / prm (j + 1)) j : ℤ)) * sign := by
        intro t ht
        rw [Finset.sum_Ico_succ_top h1, hs, ht]; ring
      have hfit : ∀ t : ℤ, t = PS.phi (x / prm (i + 1)) i * -sign → fitI 63 (s + t) = .ok (s + t) := by
        intro t ht
        have e := phi_telescope x (c := min 6 (π (Nat.sqrt x))) (a := i + 1) (by omega)
        have e1 := phi_le_self x (i + 1)
        have e2 : (PS.phi x (min 6 (π (Nat.sqrt x))) : ℤ) = PS.phi x (i + 1) +
            ∑ j ∈ Ico (min 6 (π (Nat.sqrt x))) (i + 1), (PS.phi (x / prm (j + 1)) j : ℤ) := by exact_mod_cast e
        have e3 := hgoal t ht
        rw [e2] at e3
        have e4 : s + t = ((k : ℤ) - a + PS.phi x (i + 1)) * sign := by rw [e3]; ring
        rw [e4]
        exact fitI_ok (by rcases hsign with e | e <;> subst e <;> omega)
          (by rcases hsign with e | e <;> subst e <;> omega)
      refine Ok.ite (fun hp => ?_) (fun _ => ?_)
      · rw [decide_eq_true_eq] at hp
        rw [PiTable.at_ok hE.pi hp.1, ok_bind]
        suffices hv : ((π (x / prm (i + 1)) : ℤ) - i + 1) * -sign = PS.phi (x / prm (i + 1)) i * -sign by
          rw [hfit _ hv]
          exact Ok.ok ⟨hc', hgoal _ hv⟩
        -- x / p_{i+1} ≥ p_i
        by_cases hi : i = 0
        · subst hi
          rw [phi_pix hx2 (by omega) hp.2]
        · rw [phi_pix hx2 ?_ hp.2]
          rw [← prm_le_iff_le_pi (by omega)]
          have h3 := (prm_le_iff_le_pi (i := i + 1) (n := Nat.sqrt x) (by omega)).2 (by omega)
          have h4 := Nat.sqrt_le x
          have h5 := prm_lt_prm (i := i) (j := i + 1) (by omega) (by omega)
          rw [Nat.le_div_iff_mul_le (prm_pos _)]
          nlinarith
      · refine Ok.bind (ih (-sign) _ i c' (by omega) (by omega) hx2 (by omega) hc'
          (le_trans (Nat.sqrt_le_sqrt (Nat.div_le_self _ _)) hsq) (lt_of_le_of_lt (Nat.div_le_self _ _) hx63))
          (fun r hr => ?_)
        rw [hfit _ hr.1]
        exact Ok.ok ⟨hr.2, hgoal _ hr.1⟩
    · rintro ⟨s, c'⟩ ⟨hc', hs⟩
      simp only at hs hc' ⊢
      have hval : s = PS.phi x a * sign := by
        rw [hs]
        have : (PS.phi x (min 6 (π (Nat.sqrt x))) : ℤ) = PS.phi x a + ((a : ℤ) - k) +
            ∑ i ∈ Ico (min 6 (π (Nat.sqrt x))) k, (PS.phi (x / prm (i + 1)) i : ℤ) := by
          rw [hcut]; push_cast [k2]; rfl
        rw [this]; ring
      refine Ok.bind (updateCache_ok hc' ?_) (fun c'' hc'' => Ok.pure ⟨hval, hc''⟩)
      rw [hval]
      rcases hsign with e | e <;> subst e <;> simp

theorem phi_ok {tiny : Vec PhiTiny.Tab} (ht : PhiTiny.Valid tiny 6) {sched : Scheduler} (hs : sched.Valid)
    (x a : ℤ) (hx63 : x < 2 ^ 63) (hp : prm a.toNat < 2 ^ 31 ∨ x < a) : phi tiny sched x a = .ok (PS.phi x.toNat a.toNat : ℤ) := by
  apply Ok.eq
  unfold phi
  refine Ok.ite (fun h => Ok.pure ?_) (fun hx => ?_)
  · rw [show x.toNat = 0 by omega]; simp [PS.phi]
  push Not at hx
  obtain ⟨X, rfl⟩ : ∃ X : ℕ, x = X := ⟨x.toNat, by omega⟩
  refine Ok.ite (fun h => Ok.pure ?_) (fun hax => ?_)
  · obtain ⟨B, rfl⟩ : ∃ B : ℕ, a = B := ⟨a.toNat, by omega⟩
    simp only [Int.toNat_natCast]
    rw [phi_eq_one (by omega)]
    · simp
    · have := lt_prm_self (a := B + 1) (by omega); omega
  refine Ok.ite (fun h => Ok.pure ?_) (fun ha => ?_)
  · rw [show a.toNat = 0 by omega, phi_zero]; simp
  push Not at ha hax
  obtain ⟨B, rfl⟩ : ∃ B : ℕ, a = B := ⟨a.toNat, by omega⟩
  simp only [Int.toNat_natCast]
  refine Ok.ite (fun h => ?_) (fun htiny => ?_)
  · exact Ok.of_eq (PhiTiny.phiTiny_ok ht (by simpa [PhiTiny.isPhiTiny] using h) X (by omega)) rfl
  have hB6 : 6 < B := by simpa [PhiTiny.isPhiTiny] using htiny
  have hpt := generateNPrimes_table B
  rw [generateNPrimesT_eq (by simpa using hp.resolve_right (by omega)), ok_bind, hpt.rd (by omega) le_rfl]
  simp only [ok_bind]
  refine Ok.ite (fun h => Ok.pure ?_) (fun hpa => ?_)
  · rw [phi_eq_one (by omega)]
    · simp
    · have := prm_lt_prm (i := B) (j := B + 1) (by omega) (by omega); omega
  refine Ok.bind (PiTable.build_ok _) (fun pt hpi => ?_)
  rw [PhiTiny.getC_ok, ok_bind, PiTable.at_ok hpi.2 (by rw [hpi.1]; exact le_max_left _ _), ok_bind,
    PhiTiny.phiTiny_ok ht (by omega) _ (by omega)]
  simp only [ok_bind]
  have hE : EnvOk ⟨generateNPrimes B, pt, tiny⟩ B := ⟨by simpa using hp.resolve_right (by omega), hpt, hpi.2, ht⟩
  obtain ⟨k, hk⟩ : ∃ k, k = min (π (Nat.sqrt X)) B := ⟨_, rfl⟩
  rw [← hk]
  obtain ⟨c, hc⟩ : ∃ c, c = min 6 (π (Nat.sqrt X)) := ⟨_, rfl⟩
  rw [← hc]
  have hple : ∀ i, i < B → prm (i + 1) ≤ X := fun i hi => by
    have := prm_le_prm (i := i + 1) (j := B) (by omega)
    omega
  have hcut := phi_cut (x := X) (c := c) (k := k) (a := B) (by omega) (by omega)
    (fun i h1 h2 => hple i h2)
    (fun i h1 h2 => by
      have h3 : Nat.sqrt X < prm (i + 1) := (lt_prm_iff_pi_lt (by omega)).2 (by omega)
      exact lt_of_lt_of_le lt_sqrt_mul (Nat.mul_le_mul (by omega) (by omega)))
  have hX := phi_le_self X c
  have hBX : B ≤ X := by omega
  rw [fitI_ok (by omega) (by omega), ok_bind, fitI_ok (by omega) (by omega), ok_bind]
  have hT : ∀ x d : ℕ × ℕ, x + d = ((PS.phi X B + ∑ i ∈ Ico c k, PS.phi (X / prm (i + 1)) i, 0) : ℕ × ℕ) +
      ∑ i ∈ Ico c k, (0, PS.phi (X / prm (i + 1)) i) → fitI 63 ((x.1 : ℤ) - x.2) = .ok ((x.1 : ℤ) - x.2) := by
    intro x d h
    have h1 := congrArg Prod.fst h
    have h2 := congrArg Prod.snd h
    simp only [Prod.fst_add, Prod.snd_add, Prod.fst_sum, Prod.snd_sum, Finset.sum_const_zero] at h1 h2
    exact fitI_ok (by omega) (by omega)
  refine (ompForM_ok (A := ℕ × ℕ) (fun r z => r = (z.1 : ℤ) - z.2) CacheOk
    (fun i => (0, PS.phi (X / prm (i + 1)) i)) (z0 := (PS.phi X B + ∑ i ∈ Ico c k, PS.phi (X / prm (i + 1)) i, 0))
    (fun a b x y d hd h1 h2 => ?_) (by simp) ?_ ?_ (hs X c k) ?_).mono (fun r hr => ?_)
  · have := hT _ _ hd
    rw [show a + b = (((x + y).1 : ℕ) : ℤ) - ((x + y).2 : ℕ) by
      rw [h1, h2]; simp only [Prod.fst_add, Prod.snd_add]; push_cast; ring, this]
    exact Ok.ok rfl
  · show (_ : ℤ) = ((_ : ℕ) : ℤ) - ((0 : ℕ) : ℤ)
    omega
  · refine ⟨by simp, fun a ha x hx => ?_⟩
    rw [Vec.get_mk' _ _ _ ha] at hx
    exact absurd hx (by simp [Vec.size])
  · intro i s r z d h1 h2 hd hinv hr
    rw [hpt.rd (by omega) (by omega), ok_bind, cdiv_ok (prm_pos _), ok_bind]
    refine Ok.bind (phiRec_ok hE (i + 1) (-1) _ i s (by omega) (by omega)
      (Nat.div_pos (hple i (by omega)) (prm_pos _)) (Or.inr rfl) hinv ?_ (lt_of_le_of_lt (Nat.div_le_self _ _) (by omega))) (fun q hq => ?_)
    · show _ ≤ pt.max
      rw [hpi.1]
      exact le_trans (Nat.sqrt_le_sqrt (Nat.div_le_self _ _)) (le_max_left _ _)
    · have := hT _ _ hd
      rw [show r + q.1 = (((z + (0, PS.phi (X / prm (i + 1)) i)).1 : ℕ) : ℤ) -
          ((z + (0, PS.phi (X / prm (i + 1)) i)).2 : ℕ) by
        rw [hr, hq.1]; simp only [Prod.fst_add, Prod.snd_add]; push_cast; ring, this]
      exact Ok.ok ⟨hq.2, rfl⟩
  · rw [hr]
    simp only [Prod.fst_add, Prod.snd_add, Prod.fst_sum, Prod.snd_sum, Finset.sum_const_zero]
    push_cast
    ring

private theorem lt_63 {x : ℕ} (h : x < 2 ^ 62) : (x : ℤ) < 2 ^ 63 := by omega

private theorem legendre_fit {r a : ℕ} (h1 : r < 2 ^ 62) (h2 : a < 2 ^ 31) :
    fitI 63 ((r : ℤ) + a) = .ok ((r : ℤ) + a) ∧ fitI 63 ((r : ℤ) + a - 1) = .ok ((r : ℤ) + a - 1) :=
  ⟨fitI_ok (by omega) (by omega), fitI_ok (by omega) (by omega)⟩

theorem piLegendre_ok {tiny : Vec PhiTiny.Tab} (ht : PhiTiny.Valid tiny 6) {sched : Scheduler}
    (hs : sched.Valid) (x : ℕ) (hx : x < 2 ^ 62) : piLegendre tiny sched x = .ok (π x : ℤ) := by
  induction x using Nat.strongRecOn with
  | _ x ih =>
    unfold piLegendre
    split
    · rename_i h
      rw [pi_lt_two h]; rfl
    · rename_i h
      have hsq : Nat.sqrt x < 2 ^ 31 := by rw [Nat.sqrt_lt]; omega
      have hx63 : (x : ℤ) < 2 ^ 63 := lt_63 hx
      have hp : prm (π (Nat.sqrt x)) < 2 ^ 31 := by
        rcases Nat.eq_zero_or_pos (π (Nat.sqrt x)) with h0 | h0
        · rw [h0]; exact lt_of_le_of_lt (prm_le_prm (show 0 ≤ 1 by omega)) (by rw [prm_one]; norm_num)
        · exact lt_of_le_of_lt ((prm_le_iff_le_pi h0).2 le_rfl) hsq
      rw [ih _ (Nat.sqrt_lt_self (by omega)) (by omega), ok_bind, 
        phi_ok ht hs (x : ℤ) _ hx63 (Or.inl (by rw [Int.toNat_natCast]; exact hp))]
      rw [ok_bind, Int.toNat_natCast, Int.toNat_natCast]
      have e1 := lt_of_le_of_lt (phi_le_self x (π (Nat.sqrt x))) hx
      have e2 := lt_of_le_of_lt (pi_le_self' (Nat.sqrt x)) hsq
      rw [(legendre_fit e1 e2).1, ok_bind]
      suffices e4 : (PS.phi x (π (Nat.sqrt x)) : ℤ) = π x - π (Nat.sqrt x) + 1 by
        rw [(legendre_fit e1 e2).2, e4]
        exact congrArg _ (by ring)
      rw [phi_pix (by omega) (pi_mono (Nat.sqrt_le_self x))]
      · have h3 : Nat.sqrt x < prm (π (Nat.sqrt x) + 1) := (lt_prm_iff_pi_lt (by omega)).2 (by omega)
        exact lt_of_lt_of_le lt_sqrt_mul (Nat.mul_le_mul (by omega) (by omega))

end Phi
end PS
