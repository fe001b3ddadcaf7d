import Verif.Model.P2
import Verif.Proof.Phi
import Verif.Proof.BRes
import Verif.Proof.Imath
import Verif.Proof.Width

namespace PS
open Finset Res LawfulRes
open scoped Classical
local notation "π" => Nat.primeCounting

theorem nextPrime_of_gap {a b : ℕ} (hab : a ≤ b) (h : b < nextPrime a) : nextPrime b = nextPrime a := by
  have h1 := nextPrime_spec a
  apply le_antisymm
  · exact nextPrime_min h1.2 h
  · exact nextPrime_min (nextPrime_spec b).2 (by have := lt_nextPrime b; omega)

theorem nextPrime_le {n : ℕ} (h : n ≠ 0) : nextPrime n ≤ 2 * n := by
  obtain ⟨p, hp, h1, h2⟩ := Nat.exists_prime_lt_and_le_two_mul n h
  exact (nextPrime_min hp h1).trans h2

theorem nextPrime_fits {n : ℕ} (h : n < 2 ^ 62) : nextPrime n < 2 ^ 63 := by
  rcases Nat.eq_zero_or_pos n with h0 | h0
  · have := nextPrime_min Nat.prime_two (show n < 2 by omega)
    omega
  · have := nextPrime_le (show n ≠ 0 by omega)
    omega

theorem wrap64_eq {n : ℕ} (h : n < 2 ^ 63) : wrap64 n = n := by
  unfold wrap64
  rw [Int.bmod_eq_of_le] <;> omega

theorem whilePrimes_ok {σ : Type} {pos lim : ℕ} {s : σ} {f : ℕ → σ → σ} (Inv : ℕ → σ → Prop)
    (h0 : Inv pos s) (hle : pos ≤ lim) (hlim : lim < 2 ^ 62)
    (hskip : ∀ k s, pos ≤ k → k < lim → ¬ (k + 1).Prime → Inv k s → Inv (k + 1) s)
    (hf : ∀ p s, p.Prime → pos < p → p ≤ lim → Inv (p - 1) s → Inv p (f p s)) :
    Ok (whilePrimes (nextPrime pos) lim s f) (fun r => r.1 = nextPrime lim ∧ Inv lim r.2) := by
  induction hn : lim - pos using Nat.strongRecOn generalizing pos s with
  | _ n ih =>
    have hnp : ∀ b, b < nextPrime pos → ∀ p, pos < p → p ≤ b → ¬ p.Prime := by
      intro b hb p h1 h2 hp
      have := nextPrime_min hp h1
      omega
    have hlt := lt_nextPrime pos
    have hgap : ∀ b, pos ≤ b → b < nextPrime pos → b ≤ lim → Inv b s := by
      intro b hb hb2 hbl
      induction b, hb using Nat.le_induction with
      | base => exact h0
      | succ k hk ih2 =>
        exact hskip k s hk (by omega) (hnp _ hb2 _ (by omega) le_rfl) (ih2 (by omega) (by omega))
    unfold whilePrimes
    split
    · rename_i h
      have h : nextPrime pos ≤ lim := by omega
      rw [if_pos (nextPrime_fits (by omega))]
      have hpr := (nextPrime_spec pos).2
      have hinv := hf _ s hpr hlt h (hgap _ (by omega) (by omega) (by omega))
      exact ih (lim - nextPrime pos) (by omega) hinv h
        (fun k s h1 h2 => hskip k s (by omega) h2) (fun p s hp h1 h2 => hf p s hp (by omega) h2) rfl
    · rename_i h
      exact Ok.ok ⟨(nextPrime_of_gap hle (by omega)).symm, hgap lim hle (by omega) le_rfl⟩

namespace P2

variable {R : Type} [Res R] (S : BRes R)

/-- Sum over the primes `q` with `y < q ≤ √x` in `(a, b]`. -/
noncomputable def qsum (x y : ℕ) (f : ℕ → ℤ) (a b : ℕ) : ℤ :=
  ∑ q ∈ (Ioc a b).filter (fun q => q.Prime ∧ y < q ∧ q ≤ Nat.sqrt x), f q

theorem qsum_self (x y : ℕ) (f : ℕ → ℤ) (a : ℕ) : qsum x y f a a = 0 := by simp [qsum]

theorem qsum_succ (x y : ℕ) (f : ℕ → ℤ) {a b : ℕ} (h : a ≤ b) : qsum x y f a (b + 1) = qsum x y f a b +
    if (b + 1).Prime ∧ y < b + 1 ∧ b + 1 ≤ Nat.sqrt x then f (b + 1) else 0 := by
  unfold qsum
  have : Ioc a (b + 1) = insert (b + 1) (Ioc a b) := by ext n; simp; omega
  rw [this, Finset.filter_insert]
  split
  · rw [Finset.sum_insert (by simp)]; ring
  · simp

theorem qsum_add (x y : ℕ) (f : ℕ → ℤ) {a b c : ℕ} (h1 : a ≤ b) (h2 : b ≤ c) :
    qsum x y f a b + qsum x y f b c = qsum x y f a c := by
  induction c, h2 using Nat.le_induction with
  | base => simp [qsum_self]
  | succ k hk ih => rw [qsum_succ x y f hk, qsum_succ x y f (by omega), ← ih]; ring

/-- Relation between the local sums of a thread and integers; the integers are functions of a sign `σ`, the values for
`σ = 1` and the bounds for `σ = -1`. -/
def SRep (s : St R) (a : ℤ → ℤ) (b : ℤ) (c : ℤ → ℤ) : Prop :=
  S.Rep s.p2 (a 1) (a (-1)) ∧ S.Rep s.primeSum b b ∧ S.Rep s.correct (c 1) (c (-1))

theorem fwd_ok {x y lim pos lo : ℕ} (hL : ∀ a : ℤ, a ≤ primeSum lim → S.Lim a) (hlim : lim < 2 ^ 62) (hlo : lo ≤ pos + 1)
    {s : St R} {a c : ℤ → ℤ} {b : ℤ} (hb : b = primeSum pos - primeSum (lo - 1)) (hs : SRep S s a b c) (hle : pos ≤ lim) :
    Ok (whilePrimes (nextPrime pos) lim s (fwd y (Nat.sqrt x))) (fun r => r.1 = nextPrime lim ∧ SRep S r.2
      (fun σ => a σ - σ * qsum x y (fun q => q * (primeSum (q - 1) - primeSum (lo - 1))) pos lim)
      (primeSum lim - primeSum (lo - 1)) (fun σ => c σ - σ * qsum x y (fun q => q) pos lim)) := by
  refine whilePrimes_ok (fun k (s : St R) => SRep S s
      (fun σ => a σ - σ * qsum x y (fun q => q * (primeSum (q - 1) - primeSum (lo - 1))) pos k)
      (primeSum k - primeSum (lo - 1)) (fun σ => c σ - σ * qsum x y (fun q => q) pos k)) ?_ hle hlim ?_ ?_
  · simp only [qsum_self, sub_zero, mul_zero]
    rw [← hb]; exact hs
  · intro k s h1 h2 hnp hinv
    rw [qsum_succ x y _ h1, qsum_succ x y _ h1, primeSum_succ, if_neg hnp, if_neg (by tauto), if_neg (by tauto)]
    simpa using hinv
  · intro p s hp h1 h2 ⟨i1, i2, i3⟩
    obtain ⟨k, rfl⟩ : ∃ k, p = k + 1 := ⟨p - 1, by omega⟩
    rw [Nat.add_sub_cancel] at i1 i2 i3
    rw [qsum_succ x y _ (by omega), qsum_succ x y _ (by omega), primeSum_succ, if_pos hp]
    have hpr := S.rep_ofInt ((k + 1 : ℕ) : ℤ) (by omega) (by omega)
    rw [Nat.abs_cast] at hpr
    have hmk : primeSum k ≤ primeSum lim := primeSum_mono (by omega)
    have hm1 : primeSum (lo - 1) ≤ primeSum k := primeSum_mono (by omega)
    have hm2 := primeSum_le k
    have hm3 : k * (k + 1) ≤ 2 ^ 127 * 2 ^ 127 := Nat.mul_le_mul (by omega) (by omega)
    unfold fwd
    by_cases hc : k + 1 > y ∧ k + 1 ≤ Nat.sqrt x
    · rw [if_pos hc, if_pos ⟨hp, hc.1, hc.2⟩, if_pos ⟨hp, hc.1, hc.2⟩]
      refine ⟨?_, ?_, ?_⟩
      · have := S.rep_sub _ _ _ _ _ _ i1 (S.rep_mul _ _ _ _ _ _ i2 hpr (by omega) (by omega) (by omega) (by omega)
          (hL _ (by omega)) (S.lim_small _ (by omega)))
        convert this using 1 <;> simp only [Nat.add_sub_cancel] <;> ring
      · have := S.rep_add _ _ _ _ _ _ i2 hpr
        convert this using 1 <;> push_cast <;> ring
      · have := S.rep_sub _ _ _ _ _ _ i3 hpr
        convert this using 1 <;> push_cast <;> ring
    · rw [if_neg hc, if_neg (by tauto), if_neg (by tauto)]
      refine ⟨?_, ?_, ?_⟩
      · simpa using i1
      · have := S.rep_add _ _ _ _ _ _ i2 hpr
        convert this using 1 <;> push_cast <;> ring
      · simpa using i3

/-- Sum over the primes in the open interval `(a, b)`. -/
noncomputable def psum (f : ℕ → ℤ) (a b : ℕ) : ℤ := ∑ p ∈ (Ioo a b).filter Nat.Prime, f p

theorem walk_ok {x y z start lo : ℕ} (hL : ∀ a : ℤ, a ≤ primeSum (z - 1) → S.Lim a) (hz : z ≤ 2 ^ 62) (hstart : x / z ≤ start) (hz0 : 0 < z)
    (u : ℕ) : u ≤ 2 ^ 126 → ∀ (pos : ℕ) (s : St R) (a : ℤ → ℤ) (b : ℤ) (c : ℤ → ℤ), lo ≤ pos + 1 → pos + 1 ≤ z →
    (∀ p, 0 < p → p < u → pos ≤ x / p) → b = primeSum pos - primeSum (lo - 1) → SRep S s a b c →
    Ok (walk x y z (start : ℤ) (Nat.sqrt x) (prevPrime u) (nextPrime pos) s) (fun s => SRep S s
      (fun σ => a σ + psum (fun p => p * (primeSum (x / p) - primeSum (lo - 1))) start u -
        σ * qsum x y (fun q => q * (primeSum (q - 1) - primeSum (lo - 1))) pos (z - 1))
      (primeSum (z - 1) - primeSum (lo - 1))
      (fun σ => c σ + psum (fun p => p) start u - σ * qsum x y (fun q => q) pos (z - 1))) := by
  induction u using Nat.strongRecOn with
  | _ u ih =>
    intro hu pos s a b c hlo hpz hdiv hb hs
    have hfin : prevPrime u ≤ start → ∀ f, psum f start u = 0 := by
      intro h f
      unfold psum
      rw [Finset.filter_false_of_mem, Finset.sum_empty]
      intro p hp hpp
      rw [Finset.mem_Ioo] at hp
      rcases prevPrime_spec u with ⟨_, h2⟩ | ⟨_, _, h3⟩
      · exact h2 p hpp hp.2
      · have := h3 p hpp hp.2; omega
    unfold walk
    split
    · rename_i h
      rcases prevPrime_spec u with ⟨h1, _⟩ | ⟨hp, hlt, hmax⟩
      · omega
      have hp0 := hp.pos
      rw [dif_neg (by omega)]
      dsimp only
      have hxz : x / prevPrime u < z := by
        rw [Nat.div_lt_iff_lt_mul hp0]
        have : x / z < prevPrime u := by omega
        rw [Nat.div_lt_iff_lt_mul hz0] at this
        rw [Nat.mul_comm]; exact this
      rw [wrap64_eq (by omega), if_pos (by omega)]
      have hpos : pos ≤ x / prevPrime u := hdiv _ hp0 hlt
      have hmz : primeSum (x / prevPrime u) ≤ primeSum (z - 1) := primeSum_mono (by omega)
      refine Ok.bind (fwd_ok S (x := x) (y := y) (fun a ha => hL a (by omega)) (by omega) hlo hb hs hpos) (fun r hr => ?_)
      obtain ⟨f1, f2, f3, f4⟩ := hr
      rw [f1]
      have hm1 : primeSum (lo - 1) ≤ primeSum (x / prevPrime u) := primeSum_mono (by omega)
      have hm2 := primeSum_le (x / prevPrime u)
      have hm3 : x / prevPrime u * (x / prevPrime u + 1) ≤ 2 ^ 127 * 2 ^ 127 := Nat.mul_le_mul (by omega) (by omega)
      have hpr := S.rep_ofInt (prevPrime u : ℤ) (by omega) (by omega)
      rw [Nat.abs_cast] at hpr
      have hps : ∀ f : ℕ → ℤ, psum f start u = psum f start (prevPrime u) + f (prevPrime u) := by
        intro f
        unfold psum
        have : (Ioo start u).filter Nat.Prime = insert (prevPrime u) ((Ioo start (prevPrime u)).filter Nat.Prime) := by
          ext q
          simp only [Finset.mem_filter, Finset.mem_Ioo, Finset.mem_insert]
          constructor
          · rintro ⟨⟨q1, q2⟩, q3⟩
            have := hmax q q3 q2
            by_cases hq : q = prevPrime u
            · exact Or.inl hq
            · exact Or.inr ⟨⟨q1, by omega⟩, q3⟩
          · rintro (rfl | ⟨⟨q1, q2⟩, q3⟩)
            · exact ⟨⟨by omega, hlt⟩, hp⟩
            · exact ⟨⟨q1, by omega⟩, q3⟩
        rw [this, Finset.sum_insert (by simp)]; ring
      have i1 := S.rep_add _ _ _ _ _ _ f2 (S.rep_mul _ _ _ _ _ _ f3 hpr (by omega) (by omega) (by omega) (by omega)
        (hL _ (by omega)) (S.lim_small _ (by omega)))
      have i3 := S.rep_add _ _ _ _ _ _ f4 hpr
      refine Ok.mono (ih (prevPrime u) hlt (by omega) (x / prevPrime u) _
        (fun σ => a σ - σ * qsum x y (fun q => q * (primeSum (q - 1) - primeSum (lo - 1))) pos (x / prevPrime u) +
          (primeSum (x / prevPrime u) - primeSum (lo - 1)) * prevPrime u) _
        (fun σ => c σ - σ * qsum x y (fun q => q) pos (x / prevPrime u) + prevPrime u)
        (by omega) (by omega) ?_ rfl ⟨i1, f3, i3⟩) ?_
      · intro p hp0 hpu
        exact Nat.div_le_div_left hpu.le hp0
      · intro s hs
        rw [hps, hps, ← qsum_add x y _ hpos (show x / prevPrime u ≤ z - 1 by omega),
          ← qsum_add x y (fun q => q) hpos (show x / prevPrime u ≤ z - 1 by omega)]
        convert hs using 1 <;> funext σ <;> ring
    · rename_i h
      rw [hfin (by omega), hfin (by omega)]
      simp only [add_zero]
      rw [show ((z : ℤ) - 1) = ((z - 1 : ℕ) : ℤ) by omega]
      exact Ok.bind (fwd_ok S hL (by omega) hlo hb hs (by omega)) (fun r hr => Ok.pure hr.2)

/-- If `x / z` does not fit `int64_t`, then `start` is an arbitrary number; the first prime then ends the loop. -/
theorem walk_far {x y z lo pos : ℕ} {start : ℤ} (hL : ∀ a : ℤ, a ≤ primeSum (z - 1) → S.Lim a) (hx : x < 2 ^ 124) (hz : z ≤ 2 ^ 62) (hz0 : 0 < z)
    (hfar : 2 ^ 63 ≤ x / z) {s : St R} {a c : ℤ → ℤ} {b : ℤ} (hlo : lo ≤ pos + 1) (hpz : pos + 1 ≤ z)
    (hb : b = primeSum pos - primeSum (lo - 1)) (hs : SRep S s a b c) :
    Ok (walk x y z start (Nat.sqrt x) (prevPrime (Nat.sqrt x + 1)) (nextPrime pos) s) (fun s => SRep S s
      (fun σ => a σ - σ * qsum x y (fun q => q * (primeSum (q - 1) - primeSum (lo - 1))) pos (z - 1))
      (primeSum (z - 1) - primeSum (lo - 1)) (fun σ => c σ - σ * qsum x y (fun q => q) pos (z - 1))) := by
  have hend : Ok (do let r ← whilePrimes (nextPrime pos) ((z : ℤ) - 1) s (fwd y (Nat.sqrt x)); pure r.2)
      (fun s => SRep S s (fun σ => a σ - σ * qsum x y (fun q => q * (primeSum (q - 1) - primeSum (lo - 1))) pos (z - 1))
      (primeSum (z - 1) - primeSum (lo - 1)) (fun σ => c σ - σ * qsum x y (fun q => q) pos (z - 1))) := by
    rw [show ((z : ℤ) - 1) = ((z - 1 : ℕ) : ℤ) by omega]
    exact Ok.bind (fwd_ok S hL (by omega) hlo hb hs (by omega)) (fun r hr => Ok.pure hr.2)
  unfold walk
  split
  · have hzx := (Nat.le_div_iff_mul_le hz0).1 hfar
    have hx63 : 2 ^ 63 ≤ x := by
      have := Nat.mul_le_mul_left (2 ^ 63) (show 1 ≤ z by omega)
      omega
    have hsx : Nat.sqrt x < 2 ^ 62 := by rw [Nat.sqrt_lt']; omega
    have hsx2 : 2 ≤ Nat.sqrt x := by rw [Nat.le_sqrt]; omega
    obtain ⟨q, hq, hq1, hq2⟩ := Nat.exists_prime_lt_and_le_two_mul (Nat.sqrt x / 2) (by omega)
    rcases prevPrime_spec (Nat.sqrt x + 1) with ⟨_, h2⟩ | ⟨hp, hlt, hmax⟩
    · exact absurd hq2 (fun _ => h2 q hq (by omega))
    have hqp := hmax q hq (by omega)
    have hp0 := hp.pos
    rw [dif_neg (by omega)]
    dsimp only
    have hlt2 : x / prevPrime (Nat.sqrt x + 1) < 2 ^ 63 := by
      rw [Nat.div_lt_iff_lt_mul hp0]
      have h1 := Nat.lt_succ_sqrt x
      have h2 : (Nat.sqrt x + 1) * (Nat.sqrt x + 1) ≤ 2 ^ 62 * (2 * prevPrime (Nat.sqrt x + 1)) :=
        Nat.mul_le_mul (by omega) (by omega)
      have h3 : x < (Nat.sqrt x + 1) * (Nat.sqrt x + 1) := h1
      omega
    have hge : z ≤ x / prevPrime (Nat.sqrt x + 1) := by
      rw [Nat.le_div_iff_mul_le hp0]
      have := Nat.mul_le_mul_left z (show prevPrime (Nat.sqrt x + 1) ≤ 2 ^ 63 by omega)
      rw [Nat.mul_comm] at hzx
      omega
    rw [wrap64_eq hlt2, if_neg (by omega)]
    exact hend
  · exact hend

/-- Sum over the primes `p` with `y < p ≤ √x` and `lo ≤ x / p < hi`. -/
noncomputable def gsum (x y : ℕ) (f : ℕ → ℤ) (lo hi : ℕ) : ℤ :=
  ∑ p ∈ (Ioc y (Nat.sqrt x)).filter (fun p => p.Prime ∧ lo ≤ x / p ∧ x / p < hi), f p

theorem gsum_self (x y : ℕ) (f : ℕ → ℤ) (a : ℕ) : gsum x y f a a = 0 := by
  unfold gsum
  rw [Finset.filter_false_of_mem, Finset.sum_empty]
  intro p _ h; omega

theorem gsum_add (x y : ℕ) (f : ℕ → ℤ) {a b c : ℕ} (h1 : a ≤ b) (h2 : b ≤ c) :
    gsum x y f a b + gsum x y f b c = gsum x y f a c := by
  unfold gsum
  rw [← Finset.sum_union]
  · apply Finset.sum_congr _ (fun _ _ => rfl)
    rw [← Finset.filter_or]
    apply Finset.filter_congr
    intro p _
    constructor
    · rintro (⟨h1, h2, h3⟩ | ⟨h1, h2, h3⟩)
      · exact ⟨h1, by omega, by omega⟩
      · exact ⟨h1, by omega, by omega⟩
    · rintro ⟨h1, h2, h3⟩
      by_cases h : x / p < b
      · exact Or.inl ⟨h1, h2, h⟩
      · exact Or.inr ⟨h1, by omega, h3⟩
  · rw [Finset.disjoint_filter]
    rintro p _ ⟨_, _, _⟩ ⟨_, _, _⟩
    omega

theorem psum_gsum (x y : ℕ) (f : ℕ → ℤ) {lo hi : ℕ} (hlo : 0 < lo) (hhi : 0 < hi) :
    psum f (max (x / hi) y) (min (x / lo) (Nat.sqrt x) + 1) = gsum x y f lo hi := by
  unfold psum gsum
  apply Finset.sum_congr _ (fun _ _ => rfl)
  ext p
  simp only [Finset.mem_filter, Finset.mem_Ioo, Finset.mem_Ioc]
  by_cases hp : p.Prime
  · have hp0 := hp.pos
    have e1 : x / hi < p ↔ x / p < hi := by
      rw [Nat.div_lt_iff_lt_mul hhi, Nat.div_lt_iff_lt_mul hp0, Nat.mul_comm]
    have e2 : p ≤ x / lo ↔ lo ≤ x / p := by
      rw [Nat.le_div_iff_mul_le hlo, Nat.le_div_iff_mul_le hp0, Nat.mul_comm]
    simp only [hp, true_and, and_true]
    rw [max_lt_iff, Nat.lt_succ_iff, le_min_iff, e1, e2]
    tauto
  · simp [hp]

theorem sqrt_bounds {x : ℕ} (hx : x < 2 ^ 127) : Nat.sqrt x < 2 ^ 64 ∧ primeSum (Nat.sqrt x) < 2 ^ 127 := by
  have h1 : Nat.sqrt x < 2 ^ 64 := by rw [Nat.sqrt_lt]; omega
  have h2 := primeSum_le (Nat.sqrt x)
  have h3 := Nat.sqrt_le x
  refine ⟨h1, ?_⟩
  rw [Nat.mul_add, Nat.mul_one] at h2
  omega

theorem sqrt_bounds' {x : ℕ} (hx : x < 2 ^ 124) : 2 * primeSum (Nat.sqrt x) ≤ 2 ^ 126 := by
  have h2 := primeSum_le (Nat.sqrt x)
  have h3 := Nat.sqrt_le x
  have h4 := Nat.sqrt_le_self x
  rw [Nat.mul_add, Nat.mul_one] at h2
  omega

/-- The quantities computed by one thread, on the interval `[lo, hi)`, for `σ = 1`; their bounds for `σ = -1`. -/
noncomputable def T (σ : ℤ) (x y lo hi : ℕ) : ℤ :=
  gsum x y (fun p => p * (primeSum (x / p) - primeSum (lo - 1))) lo hi -
    σ * qsum x y (fun q => q * (primeSum (q - 1) - primeSum (lo - 1))) (lo - 1) (hi - 1)

noncomputable def C (σ : ℤ) (x y lo hi : ℕ) : ℤ := gsum x y (fun p => p) lo hi - σ * qsum x y (fun q => q) (lo - 1) (hi - 1)

noncomputable def U (σ : ℤ) (x y lo hi : ℕ) : ℤ :=
  gsum x y (fun p => p * (primeSum (x / p) + primeSum y)) lo hi -
    σ * qsum x y (fun q => q * (primeSum (q - 1) + primeSum y)) (lo - 1) (hi - 1)

theorem T_add_C (σ : ℤ) (x y lo hi : ℕ) :
    T σ x y lo hi + (primeSum y + primeSum (lo - 1)) * C σ x y lo hi = U σ x y lo hi := by
  unfold T C U gsum qsum
  rw [mul_sub, mul_left_comm, Finset.mul_sum]
  simp only [Finset.mul_sum]
  rw [sub_add_sub_comm, ← Finset.sum_add_distrib, ← Finset.sum_add_distrib]
  congr 1 <;> exact Finset.sum_congr rfl (fun p _ => by ring)

theorem U_add (σ : ℤ) (x y : ℕ) {a b c : ℕ} (h1 : a ≤ b) (h2 : b ≤ c) : U σ x y a b + U σ x y b c = U σ x y a c := by
  unfold U
  rw [← gsum_add x y _ h1 h2, ← qsum_add x y _ (show a - 1 ≤ b - 1 by omega) (show b - 1 ≤ c - 1 by omega)]
  ring

theorem U_self (σ : ℤ) (x y a : ℕ) : U σ x y a a = 0 := by unfold U; rw [gsum_self, qsum_self]; ring

theorem C_bounds {x y lo hi : ℕ} (hx : x < 2 ^ 127) : -2 ^ 127 ≤ C 1 x y lo hi ∧ C 1 x y lo hi < 2 ^ 127 ∧
    C (-1) x y lo hi ≤ 2 * primeSum (Nat.sqrt x) := by
  have hb := (sqrt_bounds hx).2
  have h1 : gsum x y (fun p => p) lo hi ≤ primeSum (Nat.sqrt x) := by
    unfold gsum primeSum
    push_cast
    apply Finset.sum_le_sum_of_subset_of_nonneg
    · intro p
      simp only [Finset.mem_filter, Finset.mem_Ioc, Finset.mem_range]
      rintro ⟨_, h, _⟩; exact ⟨by omega, h⟩
    · intros; omega
  have h2 : qsum x y (fun q => q) (lo - 1) (hi - 1) ≤ primeSum (Nat.sqrt x) := by
    unfold qsum primeSum
    push_cast
    apply Finset.sum_le_sum_of_subset_of_nonneg
    · intro p
      simp only [Finset.mem_filter, Finset.mem_Ioc, Finset.mem_range]
      rintro ⟨_, h, _⟩; exact ⟨by omega, h⟩
    · intros; omega
  have h3 : 0 ≤ gsum x y (fun p => p) lo hi := Finset.sum_nonneg (fun _ _ => by omega)
  have h4 : 0 ≤ qsum x y (fun q => q) (lo - 1) (hi - 1) := Finset.sum_nonneg (fun _ _ => by omega)
  unfold C
  refine ⟨?_, ?_, ?_⟩ <;> omega

theorem thread_ok {x y z d i low : ℕ} (hL : ∀ a : ℤ, a ≤ primeSum y + primeSum z → S.Lim a) (hx : x < 2 ^ 124) (hy : y < 2 ^ 62) (hz : z ≤ 2 ^ 62) (hlow : 1 ≤ low)
    (hlt : low + d * i < z) (hd : 0 < d) (hdz : d < 2 ^ 62) : Ok (thread R x y z d i low) (fun s => SRep S s
      (fun σ => T σ x y (low + d * i) (min (low + d * (i + 1)) z))
      (primeSum (min (low + d * (i + 1)) z - 1) - primeSum (low + d * i - 1))
      (fun σ => C σ x y (low + d * i) (min (low + d * (i + 1)) z))) := by
  unfold thread
  rw [fit_ok (show d * i < 2 ^ 63 by omega)]
  simp only [ok_bind]
  rw [fit_ok (show low + d * i < 2 ^ 63 by omega)]
  simp only [ok_bind]
  have hsx : Nat.sqrt x < 2 ^ 62 := by rw [Nat.sqrt_lt']; omega
  rw [fit_ok (show low + d * i + d < 2 ^ 63 by omega), fit_ok (show Nat.sqrt x < 2 ^ 63 by omega)]
  simp only [ok_bind]
  rw [show low + d * (i + 1) = low + d * i + d by ring]
  have hlo : 1 ≤ low + d * i := by omega
  generalize low + d * i = lo at *
  have hhi : 0 < min (lo + d) z := by omega
  have hhi2 : lo < min (lo + d) z := by omega
  rw [cdiv_ok hhi, cdiv_ok (by omega : 0 < lo), csub_ok hlo]
  simp only [ok_bind]
  rw [fit_ok (show min (x / lo) (Nat.sqrt x) + 1 < 2 ^ 63 by omega), fit_ok (nextPrime_fits (by omega))]
  simp only [ok_bind]
  have h0 := S.rep_zero
  have hL : ∀ a : ℤ, a ≤ primeSum (min (lo + d) z - 1) → S.Lim a := fun a ha => hL a (by
    have : primeSum (min (lo + d) z - 1) ≤ primeSum z := primeSum_mono (by omega)
    omega)
  rcases Nat.lt_or_ge (x / min (lo + d) z) (2 ^ 63) with hnear | hfar
  swap
  · have hle : x / min (lo + d) z ≤ x / lo := Nat.div_le_div_left hhi2.le (by omega)
    have hmn : min (x / lo) (Nat.sqrt x) = Nat.sqrt x := by omega
    have hps : ∀ f : ℕ → ℤ, gsum x y f lo (min (lo + d) z) = 0 := by
      intro f
      rw [← psum_gsum x y f (by omega) hhi]
      unfold psum
      rw [Finset.Ioo_eq_empty (by omega), Finset.filter_empty, Finset.sum_empty]
    rw [hmn]
    refine (walk_far S (x := x) (y := y) (lo := lo) hL hx (by omega) hhi hfar
      (a := fun _ => 0) (b := 0) (c := fun _ => 0) (by omega) (by omega) (by ring) ⟨h0, h0, h0⟩).mono (fun s hs => ?_)
    unfold T C
    rw [hps, hps]
    exact hs
  rw [wrap64_eq (show max (x / min (lo + d) z) y < 2 ^ 63 by omega)]
  refine (walk_ok S (x := x) (y := y) (z := min (lo + d) z) (start := max (x / min (lo + d) z) y)
    (lo := lo) hL (by omega) (le_max_left _ _) hhi _ (by omega) (lo - 1) _ (fun _ => 0) 0 (fun _ => 0) (by omega) (by omega)
    ?_ (by ring) ⟨h0, h0, h0⟩).mono ?_
  · intro p hp0 hp
    have : p ≤ x / lo := by omega
    rw [Nat.le_div_iff_mul_le (by omega)] at this
    have : lo ≤ x / p := by rw [Nat.le_div_iff_mul_le hp0, Nat.mul_comm]; exact this
    omega
  · intro s hs
    rw [psum_gsum x y _ (by omega) hhi, psum_gsum x y _ (by omega) hhi] at hs
    simp only [zero_add] at hs
    exact hs

theorem inBetween_pos (d mx : ℤ) (h : 1 ≤ mx) : 0 < inBetween (2 ^ 23) d mx := by
  unfold inBetween
  split
  · norm_num
  · split <;> omega

theorem balanceLoad_ok {z low n : ℕ} {d : ℤ} (time : Ordering) (hz : z ≤ 2 ^ 62) (hlow : low < 2 ^ 63)
    (hlow2 : 2 ≤ low) (hn : 1 ≤ n) (hn2 : n < 2 ^ 62) (hd : 0 < d ∧ d < 2 ^ 62) :
    Ok (balanceLoad d low z n time) (fun d' => low < z → 0 < d' ∧ d' < 2 ^ 62) := by
  unfold balanceLoad
  have hdist : ∃ d', adjust d time = .ok d' := by
    cases time
    · exact ⟨_, fitI_ok (by omega) (by omega)⟩
    · exact ⟨_, rfl⟩
    · exact ⟨_, rfl⟩
  obtain ⟨d', hd'⟩ := hdist
  rw [fitI_ok (by omega) (by omega)]
  simp only [ok_bind]
  rw [if_neg (by omega), hd']
  simp only [pure_eq_ok, ok_bind]
  refine Ok.ok (fun hl => ⟨?_, ?_⟩)
  · have hmax : 1 ≤ Int.tdiv ((z : ℤ) - low + n - 1) n := by
      rw [Int.tdiv_eq_ediv_of_nonneg (by omega), Int.le_ediv_iff_mul_le (by omega)]
      omega
    exact inBetween_pos _ _ hmax
  · have hmax : Int.tdiv ((z : ℤ) - low + n - 1) n < 2 ^ 62 := by
      rw [Int.tdiv_eq_ediv_of_nonneg (by omega), Int.ediv_lt_iff_lt_mul (by omega)]
      have : ((z : ℤ) - low) * 1 ≤ ((z : ℤ) - low) * n := by
        apply mul_le_mul_of_nonneg_left <;> omega
      nlinarith
    unfold inBetween
    split
    · norm_num
    · split <;> omega

/-- Invariant of the main loop. -/
structure Inv (x y z size : ℕ) (s : MSt R) : Prop where
  low : 2 ≤ s.low
  dist : s.low < z → 0 < s.distance
  dist' : s.low < z → s.distance < 2 ^ 62
  threads : 1 ≤ s.threads
  threads' : s.threads ≤ size
  p2 : S.Rep s.p2 (U 1 x y 2 (min s.low z)) (U (-1) x y 2 (min s.low z))
  sum : S.Rep s.primeSum (primeSum y + primeSum (min s.low z - 1)) (primeSum y + primeSum (min s.low z - 1))

theorem iteration_ok {x y z size : ℕ} {sched : Scheduler} (hs : sched.Valid) (time : ℕ → Ordering)
    (hL : ∀ a : ℤ, a ≤ primeSum y + primeSum z → S.Lim a)
    (hx : x < 2 ^ 124) (hz : z ≤ 2 ^ 62) (hy : y < 2 ^ 62) {s : MSt R} (hi : Inv S x y z size s) (hlt : s.low < z) :
    Ok (iteration sched time size x y z s) (fun s' => Inv S x y z size s' ∧ s.low < s'.low) := by
  obtain ⟨h1, h2, h2', h3, h4, h5, h6⟩ := hi
  have hd := h2 hlt
  have hd2 := h2' hlt
  rw [Nat.min_eq_left (by omega)] at h5 h6
  unfold iteration
  rw [if_neg (by omega)]
  dsimp only
  obtain ⟨d, hdd⟩ : ∃ d : ℕ, s.distance = d := ⟨s.distance.toNat, by omega⟩
  rw [hdd] at hd hd2 ⊢
  rw [Int.toNat_natCast]
  have hd : 0 < d := by omega
  have hd2 : d < 2 ^ 62 := by omega
  rw [fit_ok (show z - s.low + d < 2 ^ 63 by omega)]
  simp only [ok_bind]
  rw [cdiv_ok hd]
  simp only [ok_bind]
  obtain ⟨n, hn, hn1, hnt, hns⟩ : ∃ n : ℕ, inBetween 1 s.threads (((z - s.low + d - 1) / d : ℕ) : ℤ) = n ∧ 1 ≤ n ∧
      (n : ℤ) ≤ s.threads ∧ n ≤ (z - s.low + d - 1) / d := by
    have : 1 ≤ (z - s.low + d - 1) / d := by rw [Nat.le_div_iff_mul_le hd]; omega
    generalize (z - s.low + d - 1) / d = seg at *
    refine ⟨(inBetween 1 s.threads seg).toNat, ?_⟩
    unfold inBetween
    split
    · omega
    · split <;> omega
  rw [hn, Int.toNat_natCast]
  have hin : ∀ i, i < n → s.low + d * i < z := by
    intro i hi
    rw [Nat.le_div_iff_mul_le hd] at hns
    have : (i + 1) * d ≤ n * d := Nat.mul_le_mul_right _ (by omega)
    have e : (i + 1) * d = d * i + d := by ring
    omega
  have h0 := S.rep_zero
  let e : ℕ → ℕ := fun i => min (s.low + d * i) z
  have he : ∀ i, i < n → e i = s.low + d * i := fun i hi => by have := hin i hi; simp only [e]; omega
  have hth : ∀ i, i < n → Ok (thread R x y z d i s.low) (fun t => SRep S t (fun σ => T σ x y (e i) (e (i + 1)))
      (primeSum (e (i + 1) - 1) - primeSum (e i - 1)) (fun σ => C σ x y (e i) (e (i + 1)))) := by
    intro i hi
    rw [he i hi]
    exact thread_ok S hL hx hy hz (by omega) (hin i hi) hd hd2
  have hemono : ∀ i, e i ≤ e (i + 1) := by
    intro i
    have : d * i ≤ d * (i + 1) := Nat.mul_le_mul_left _ (by omega)
    simp only [e]; omega
  have he0 : e 0 = s.low := he 0 (by omega)
  let V : ℤ → ℕ → ℤ := fun σ i => U σ x y 2 s.low + ∑ i ∈ Ico 0 n, T σ x y (e i) (e (i + 1)) +
      ∑ j ∈ Ico 0 i, (primeSum y + primeSum (e j - 1)) * C σ x y (e j) (e (j + 1))
  refine Ok.bind (ompFor_ok (fun r (za : ℤ × ℤ) => S.Rep r za.1 za.2) (fun _ => True)
    (fun i => (T 1 x y (e i) (e (i + 1)), T (-1) x y (e i) (e (i + 1))))
    (z0 := (U 1 x y 2 s.low, U (-1) x y 2 s.low)) (fun r r' p q h1 h2 => S.rep_add r r' _ _ _ _ h1 h2) h0 h5 trivial
    (hs _ 0 n) ?_) (fun p2 hp2 => ?_)
  · intro i u r w _ hi _ hr
    exact Ok.bind (hth i hi) (fun t ht => Ok.pure ⟨trivial, S.rep_add _ _ _ _ _ _ hr ht.1⟩)
  refine Ok.bind (forUp_ok (fun i (ps : R × R) => S.Rep ps.1 (V 1 i) (V (-1) i) ∧
      S.Rep ps.2 (primeSum y + primeSum (e i - 1)) (primeSum y + primeSum (e i - 1))) ?_ (Nat.zero_le _) ?_)
      (fun ps hps => ?_)
  · refine ⟨?_, ?_⟩
    · dsimp only [Prod.fst_add, Prod.snd_add] at hp2
      rw [Prod.fst_sum, Prod.snd_sum] at hp2
      simpa [V] using hp2
    · rw [he0]; exact h6
  · rintro i ⟨p2, ps⟩ _ hi ⟨g1, g2⟩
    dsimp only
    rw [if_neg (by omega)]
    refine Ok.bind (hth i hi) (fun t ht => Ok.pure ⟨?_, ?_⟩)
    · have hV : ∀ σ, V σ (i + 1) = V σ i + (primeSum y + primeSum (e i - 1)) * C σ x y (e i) (e (i + 1)) := by
        intro σ
        simp only [V]
        rw [Finset.sum_Ico_succ_top (by omega), ← add_assoc]
      rw [hV, hV]
      have hc := C_bounds (x := x) (y := y) (lo := e i) (hi := e (i + 1)) (show x < 2 ^ 127 by omega)
      have hm2 := primeSum_le (e i - 1)
      have hei : e i ≤ z := Nat.min_le_right _ _
      have hm3 : (e i - 1) * (e i - 1 + 1) ≤ 2 ^ 127 * 2 ^ 127 := Nat.mul_le_mul (by omega) (by omega)
      have hm4 := primeSum_le y
      have hm5 : y * (y + 1) ≤ 2 ^ 127 * 2 ^ 127 := Nat.mul_le_mul (by omega) (by omega)
      have hm6 : primeSum (e i - 1) ≤ primeSum z := primeSum_mono (by omega)
      have hsx := sqrt_bounds' hx
      exact S.rep_add _ _ _ _ _ _ g1 (S.rep_mul _ _ _ _ _ _ g2 ht.2.2 (by omega) (by omega) (by omega) (by omega)
        (hL _ (by omega)) (S.lim_small _ (by omega)))
    · have := S.rep_add _ _ _ _ _ _ g2 ht.2.1
      convert this using 1 <;> ring
  obtain ⟨p2', ps'⟩ := ps
  dsimp only
  have hU : ∀ σ, V σ n = U σ x y 2 (e n) := by
    intro σ
    simp only [V]
    rw [add_assoc, ← Finset.sum_add_distrib]
    have : ∀ m, U σ x y 2 s.low + ∑ i ∈ Ico 0 m, (T σ x y (e i) (e (i + 1)) +
        (primeSum y + primeSum (e i - 1)) * C σ x y (e i) (e (i + 1))) = U σ x y 2 (e m) ∧ 2 ≤ e m := by
      intro m
      induction m with
      | zero => rw [he0]; simp [h1]
      | succ m ih =>
        rw [Finset.sum_Ico_succ_top (by omega), ← add_assoc, ih.1, T_add_C, U_add σ x y ih.2 (hemono m)]
        exact ⟨rfl, ih.2.trans (hemono m)⟩
    exact (this n).1
  rw [hU, hU] at hps
  have hnz : n ≤ z - s.low := by
    refine hns.trans ((Nat.div_le_iff_le_mul_add_pred hd).2 ?_)
    have := Nat.mul_le_mul_right (z - s.low) (show 1 ≤ d by omega)
    omega
  have hdn : d * 1 ≤ d * n := Nat.mul_le_mul_left _ hn1
  have hdn2 : d * n ≤ z - s.low + d - 1 := by
    rw [Nat.le_div_iff_mul_le hd] at hns
    rw [Nat.mul_comm]; exact hns
  rw [fit_ok (show d * n < 2 ^ 63 by omega)]
  simp only [ok_bind]
  rw [fit_ok (show s.low + d * n < 2 ^ 63 by omega)]
  simp only [ok_bind]
  have hlow62 : s.low + d * n < 2 ^ 63 := by omega
  generalize hlow' : s.low + d * n = low' at *
  have hen : e n = min low' z := by simp only [e, hlow']
  rw [hen] at hps
  refine Ok.bind (balanceLoad_ok (time s.iter) hz hlow62 (by omega) hn1 (by omega) (by omega)) (fun d' hd' => ?_)
  exact Ok.ok ⟨⟨by dsimp only; omega, fun hl => (hd' hl).1, fun hl => (hd' hl).2, by dsimp only; omega,
    by dsimp only; omega, hps.1, hps.2⟩, by dsimp only; omega⟩

theorem primeSumTiny_ok {x : ℕ} (hx : x < 2 ^ 62) : primeSumTiny x = .ok (primeSum x) := by
  have := forPrimes_ok (pos := 0) (hi := x) (s := 0) (f := fun p s => fit 127 (s + p))
    (fun k s => s = primeSum k) (by rw [primeSum_lt_two (by norm_num)]) (Nat.zero_le _)
    (fun k s _ _ hp h => by rw [primeSum_succ, if_neg hp]; simpa using h)
    (fun p s hp h1 h2 h => by
      obtain ⟨k, rfl⟩ : ∃ k, p = k + 1 := ⟨p - 1, by omega⟩
      rw [Nat.add_sub_cancel] at h
      have hm := primeSum_le k
      have hm2 : k * (k + 1) ≤ 2 ^ 62 * 2 ^ 62 := Nat.mul_le_mul (by omega) (by omega)
      rw [fit_ok (by omega)]
      exact Ok.ok (by rw [primeSum_succ, if_pos hp, h]))
  exact this.eq

/-- `P2Sum` prime by prime. -/
theorem P2Sum_eq (x y : ℕ) : P2Sum x y = ∑ p ∈ (Ioc y (Nat.sqrt x)).filter Nat.Prime,
    ∑ q ∈ (Icc p (x / p)).filter Nat.Prime, p * q := by
  unfold P2Sum
  rw [Finset.sum_sigma']
  symm
  refine Finset.sum_bij (fun (a : Σ _ : ℕ, ℕ) _ => a.1 * a.2) ?_ ?_ ?_ (fun _ _ => rfl)
  · rintro ⟨p, q⟩ h
    simp only [Finset.mem_sigma, Finset.mem_filter, Finset.mem_Ioc, Finset.mem_Icc] at h ⊢
    obtain ⟨⟨⟨h1, h2⟩, h3⟩, ⟨h4, h5⟩, h6⟩ := h
    rw [Nat.le_div_iff_mul_le h3.pos] at h5
    exact ⟨⟨Nat.mul_pos h3.pos h6.pos, by rw [Nat.mul_comm]; exact h5⟩, p, q, h3, h6, h1, by omega, rfl⟩
  · rintro ⟨p, q⟩ h ⟨p', q'⟩ h' he
    simp only [Finset.mem_sigma, Finset.mem_filter, Finset.mem_Ioc, Finset.mem_Icc] at h h' he
    have hp := h.1.2; have hq := h.2.2; have hp' := h'.1.2; have hq' := h'.2.2
    have hle := h.2.1.1; have hle' := h'.2.1.1
    have hd : p ∣ p' * q' := he ▸ dvd_mul_right _ _
    have hd' : p' ∣ p * q := he ▸ dvd_mul_right _ _
    have hpp : p = p' := by
      rcases (hp.dvd_mul).1 hd with h1 | h1
      · exact (Nat.prime_dvd_prime_iff_eq hp hp').1 h1
      · have e1 := (Nat.prime_dvd_prime_iff_eq hp hq').1 h1
        rcases (hp'.dvd_mul).1 hd' with h2 | h2
        · exact ((Nat.prime_dvd_prime_iff_eq hp' hp).1 h2).symm
        · have e2 := (Nat.prime_dvd_prime_iff_eq hp' hq).1 h2
          omega
    subst hpp
    have := Nat.eq_of_mul_eq_mul_left hp.pos he
    rw [this]
  · intro n h
    simp only [Finset.mem_filter, Finset.mem_Icc] at h
    obtain ⟨⟨h1, h2⟩, p, q, hp, hq, hyp, hyq, rfl⟩ := h
    have key : ∀ p q, p.Prime → q.Prime → y < p → p ≤ q → p * q ≤ x → ∃ a, ∃ ha : a ∈ ((Ioc y (Nat.sqrt x)).filter Nat.Prime).sigma
        (fun p => (Icc p (x / p)).filter Nat.Prime), a.1 * a.2 = p * q := by
      intro p q hp hq hy hle hx
      refine ⟨⟨p, q⟩, ?_, rfl⟩
      simp only [Finset.mem_sigma, Finset.mem_filter, Finset.mem_Ioc, Finset.mem_Icc]
      refine ⟨⟨⟨hy, ?_⟩, hp⟩, ⟨hle, ?_⟩, hq⟩
      · rw [Nat.le_sqrt]; nlinarith
      · rw [Nat.le_div_iff_mul_le hp.pos, Nat.mul_comm]; exact hx
    rcases le_total p q with hle | hle
    · exact key p q hp hq hyp hle h2
    · rw [Nat.mul_comm] at h2 ⊢
      exact key q p hq hp hyq hle h2

theorem primeSum_sub {a b : ℕ} (ha : 1 ≤ a) (hab : a ≤ b) :
    (∑ q ∈ (Icc a b).filter Nat.Prime, (q : ℤ)) = primeSum b - primeSum (a - 1) := by
  rw [eq_sub_iff_add_eq]
  unfold primeSum
  push_cast
  rw [add_comm, ← Finset.sum_union]
  · apply Finset.sum_congr _ (fun _ _ => rfl)
    rw [← Finset.filter_union]
    congr 1
    ext n; simp; omega
  · rw [Finset.disjoint_left]
    intro n hn hn'
    simp at hn hn'; omega

theorem U_sum (σ : ℤ) (x y : ℕ) : U σ x y 2 (x / max y 1) =
    ∑ p ∈ (Ioc y (Nat.sqrt x)).filter Nat.Prime, (p : ℤ) * (primeSum (x / p) + primeSum y) -
      σ * ∑ p ∈ (Ioc y (Nat.sqrt x)).filter Nat.Prime, (p : ℤ) * (primeSum (p - 1) + primeSum y) := by
  have hlt : ∀ p, p.Prime → y < p → p ≤ Nat.sqrt x → p ≤ x / p ∧ x / p < x / max y 1 := by
    intro p hp h1 h2
    have h3 : p ≤ x / p := by rw [Nat.le_div_iff_mul_le hp.pos]; exact Nat.le_sqrt.1 h2
    refine ⟨h3, ?_⟩
    rw [Nat.lt_iff_add_one_le, Nat.le_div_iff_mul_le (by omega)]
    have h4 := Nat.div_mul_le_self x p
    have h5 := hp.two_le
    generalize x / p = t at *
    have h6 : t * (max y 1 + 1) ≤ t * p := Nat.mul_le_mul_left _ (by omega)
    have : max y 1 ≤ t := by omega
    nlinarith
  have e1 : ∀ f, gsum x y f 2 (x / max y 1) = ∑ p ∈ (Ioc y (Nat.sqrt x)).filter Nat.Prime, f p := by
    intro f
    unfold gsum
    apply Finset.sum_congr _ (fun _ _ => rfl)
    apply Finset.filter_congr
    intro p hp
    rw [Finset.mem_Ioc] at hp
    constructor
    · exact fun h => h.1
    · intro h
      have h3 := hlt p h hp.1 hp.2
      have := h.two_le
      exact ⟨h, by omega, h3.2⟩
  have e2 : ∀ f, qsum x y f (2 - 1) (x / max y 1 - 1) = ∑ p ∈ (Ioc y (Nat.sqrt x)).filter Nat.Prime, f p := by
    intro f
    unfold qsum
    apply Finset.sum_congr _ (fun _ _ => rfl)
    ext p
    simp only [Finset.mem_filter, Finset.mem_Ioc]
    constructor
    · rintro ⟨_, h1, h2, h3⟩; exact ⟨⟨h2, h3⟩, h1⟩
    · rintro ⟨⟨h1, h2⟩, h3⟩
      have := hlt p h3 h1 h2
      have := h3.two_le
      exact ⟨⟨by omega, by omega⟩, h3, h1, h2⟩
  unfold U
  rw [e1, e2]

theorem U_total (x y : ℕ) : U 1 x y 2 (x / max y 1) = P2Sum x y := by
  rw [P2Sum_eq, U_sum, one_mul, ← Finset.sum_sub_distrib]
  push_cast
  apply Finset.sum_congr rfl
  intro p hp
  simp only [Finset.mem_filter, Finset.mem_Ioc] at hp
  have : p ≤ x / p := by rw [Nat.le_div_iff_mul_le hp.2.pos]; exact Nat.le_sqrt.1 hp.1.2
  rw [← Finset.mul_sum, primeSum_sub hp.2.one_lt.le this]
  ring

theorem P2Sum_zero {x y : ℕ} (h : π (Nat.sqrt x) ≤ π y) : P2Sum x y = 0 := by
  rw [P2Sum_eq]
  apply Finset.sum_eq_zero
  intro p hp
  simp only [Finset.mem_filter, Finset.mem_Ioc] at hp
  have h1 : π p ≤ π (Nat.sqrt x) := pi_mono hp.1.2
  have h2 : π y < π p := by
    have := (lt_prm_iff_pi_lt (n := y) (i := π p) (pi_pos hp.2.two_le)).1
    rw [prm_pi hp.2] at this
    exact this hp.1.1
  omega

theorem P2Sum_le (x y : ℕ) : P2Sum x y * 2 ≤ x * (x + 1) := by
  have : P2Sum x y ≤ ∑ n ∈ Icc 1 x, n := Finset.sum_le_sum_of_subset (Finset.filter_subset _ _)
  have h2 : (∑ n ∈ Icc 1 x, n) ≤ ∑ n ∈ range (x + 1), n := Finset.sum_le_sum_of_subset (by
    intro n; simp)
  have h3 := Finset.sum_range_id_mul_two (x + 1)
  rw [Nat.add_sub_cancel, Nat.mul_comm (x + 1)] at h3
  omega

theorem master_rep {tiny : Vec PhiTiny.Tab} (ht : PhiTiny.Valid tiny 6) {sched : Scheduler} (hs : sched.Valid)
    (time : ℕ → Ordering) {threads : ℤ} (hth : 1 ≤ threads) {x y : ℕ} (hx : x < 2 ^ 124)
    (hy62 : y < 2 ^ 62) (hz62 : x / max y 1 ≤ 2 ^ 62)
    (hL : ∀ a : ℤ, y ≤ Nat.sqrt x → a ≤ primeSum y + primeSum (x / max y 1) → S.Lim a) :
    Ok (master R tiny sched time threads x y) (fun r => S.Rep r (P2Sum x y) 0 ∨
      S.Rep r (P2Sum x y) (U (-1) x y 2 (x / max y 1))) := by
  have h0 := S.rep_zero
  unfold master
  refine Ok.ite (fun h => Ok.pure ?_) (fun h => ?_)
  · rw [P2Sum_zero]
    · exact Or.inl h0
    · have : Nat.sqrt x < 2 := by rw [Nat.sqrt_lt]; omega
      rw [pi_lt_two this]; exact Nat.zero_le _
  have hsx62 : Nat.sqrt x < 2 ^ 62 := by rw [Nat.sqrt_lt']; omega
  rw [Phi.piLegendre_ok ht hs _ hy62, Phi.piLegendre_ok ht hs _ hsx62]
  simp only [ok_bind]
  refine Ok.ite (fun h => Ok.pure ?_) (fun h2 => ?_)
  · rw [P2Sum_zero (by omega)]
    exact Or.inl h0
  have hy : y < Nat.sqrt x := by
    by_contra hc
    have := pi_mono (show Nat.sqrt x ≤ y by omega)
    omega
  have hsx := Nat.sqrt_le_self x
  have hx127 : x < 2 ^ 127 := by omega
  have hsq := sqrt_bounds hx127
  rw [cdiv_ok (by omega), primeSumTiny_ok hy62]
  simp only [ok_bind]
  rw [fit_ok (by omega)]
  simp only [ok_bind]
  have hz : x / max y 1 ≤ x := Nat.div_le_self _ _
  have hz2 : 2 ≤ x / max y 1 := by
    rw [Nat.le_div_iff_mul_le (by omega)]
    have := Nat.sqrt_le x
    have : 2 * max y 1 ≤ Nat.sqrt x * Nat.sqrt x := Nat.mul_le_mul (by rw [Nat.le_sqrt]; omega) (by omega)
    omega
  have hf : primeSum y < 2 ^ 127 := lt_of_le_of_lt (primeSum_mono hy.le) hsq.2
  refine loop_ok (Inv S x y (x / max y 1) threads.toNat) (fun s => x / max y 1 - s.low) _ ⟨?_, ?_, ?_, ?_, ?_, ?_, ?_⟩ ?_ ?_
  · exact le_rfl
  · intro _; norm_num
  · intro _; norm_num
  · exact hth
  · dsimp only; omega
  · dsimp only
    rw [Nat.min_eq_left hz2, U_self, U_self]; exact h0
  · dsimp only
    rw [Nat.min_eq_left hz2, primeSum_lt_two (show 2 - 1 < 2 by norm_num)]
    simpa using S.rep_ofInt (primeSum y : ℤ) (by omega) (by omega)
  · dsimp only; omega
  · intro s hi
    refine Ok.ite (fun hl => ?_) (fun hl => Ok.pure ?_)
    · refine Ok.bind (iteration_ok S hs time (fun a ha => hL a (by omega) ha) hx hz62 hy62 hi hl) (fun s' hs' => Ok.pure ⟨hs'.1, by omega⟩)
    · have := hi.p2
      rw [Nat.min_eq_right (by omega), U_total x y] at this
      exact Or.inr this

theorem master_ok [LawfulRes R] {tiny : Vec PhiTiny.Tab} (ht : PhiTiny.Valid tiny 6) {sched : Scheduler} (hs : sched.Valid)
    (time : ℕ → Ordering) {threads : ℤ} (hth : 1 ≤ threads) {x y : ℕ} (hx : x < 2 ^ 124)
    (hy62 : y < 2 ^ 62) (hz62 : x / max y 1 ≤ 2 ^ 62) :
    Ok (master R tiny sched time threads x y) (fun r => Rep r (P2Sum x y)) :=
  (master_rep (BRes.lawful R) ht hs time hth hx hy62 hz62 (fun _ _ _ => trivial)).mono (fun _ h => h.elim id id)

end P2

/-- `x / y` is small if `y` is not much smaller than the cube root of `x`. -/
theorem z62_of_lt {x y : ℕ} (hx : x < 2 ^ 67) (h1 : 1 ≤ y) (h3 : x < (y + 1) ^ 3) : x / max y 1 ≤ 2 ^ 62 := by
  rw [Nat.max_eq_left h1]
  rcases Nat.lt_or_ge y 32 with h | h
  · have : (y + 1) ^ 3 ≤ 32 ^ 3 := Nat.pow_le_pow_left (by omega) 3
    have := Nat.div_le_self x y
    omega
  · have : x / y ≤ x / 32 := Nat.div_le_div_left h (by norm_num)
    omega

end PS
