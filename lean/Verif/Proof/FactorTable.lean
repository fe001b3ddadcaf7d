import Verif.Proof.Omp
import Verif.Proof.Width
import Verif.Proof.Wheel210
import Verif.Proof.PrimeSieve
import Verif.Proof.Imath
import Mathlib.NumberTheory.ArithmeticFunction.Moebius
import Mathlib.Data.Nat.Squarefree

/-! FactorTable: the constructor computes the table, for every interleaving of the threads. -/

namespace PS
namespace FactorTable
open Finset
open scoped Classical

/-- The entry an operation accesses. -/
def FOp.idx : FOp → ℕ
  | .hit i _ => i
  | .zero i => i

/-- What an operation does to its entry. -/
def FOp.val (tmax : ℕ) (v : ℕ) : FOp → ℕ
  | .hit _ p => if v = tmax then p % (tmax + 1) else if v ≠ 0 then v ^^^ 1 else v
  | .zero _ => 0

/-- Effect of a list of operations on entry `k`. -/
def eff (tmax k v : ℕ) (ops : List FOp) : ℕ :=
  ops.foldl (fun v o => if o.idx = k then o.val tmax v else v) v

theorem eff_append_one (tmax k v : ℕ) (ops : List FOp) (o : FOp) :
    eff tmax k v (ops ++ [o]) = if o.idx = k then o.val tmax (eff tmax k v ops) else eff tmax k v ops := by
  simp [eff]

theorem eff_filter (tmax k v : ℕ) (ops : List FOp) :
    eff tmax k v (ops.filter (fun o => o.idx = k)) = eff tmax k v ops := by
  unfold eff
  induction ops generalizing v with
  | nil => rfl
  | cons o l ih =>
    by_cases h : o.idx = k
    · rw [List.filter_cons_of_pos (by simpa using h), List.foldl_cons, List.foldl_cons]
      exact ih _
    · rw [List.filter_cons_of_neg (by simpa using h), List.foldl_cons, if_neg h]
      exact ih _

theorem eff_of_filter_nil {tmax k v : ℕ} {ops : List FOp} (h : ∀ o ∈ ops, o.idx ≠ k) :
    eff tmax k v ops = v := by
  rw [← eff_filter, List.filter_eq_nil_iff.2 (by intro o ho; simpa using h o ho)]
  rfl

theorem apply_ok {tmax : ℕ} {t : Vec ℕ} {o : FOp} (h : o.idx < t.size) :
    Ok (o.apply tmax t) (fun t' => t'.size = t.size ∧
      ∀ k, t'.get k = if o.idx = k then o.val tmax (t.get k) else t.get k) := by
  cases o with
  | hit i p =>
    have h' : i < t.size := h
    dsimp only [FOp.apply]
    rw [Vec.rd_ok h']
    simp only [ok_bind]
    have e : ∀ k, (FOp.hit i p).idx = k ↔ i = k := fun k => Iff.rfl
    simp only [e]
    unfold FOp.val
    split
    · rw [Vec.wr_ok h']
      refine Ok.ok ⟨by simp, fun k => ?_⟩
      rw [Vec.get_set]
      by_cases hk : i = k
      · subst hk; simp [*]
      · simp [hk]
    · split
      · rw [Vec.wr_ok h']
        refine Ok.ok ⟨by simp, fun k => ?_⟩
        rw [Vec.get_set]
        by_cases hk : i = k
        · subst hk; simp [*]
        · simp [hk]
      · refine Ok.pure ⟨rfl, fun k => ?_⟩
        by_cases hk : i = k
        · subst hk; simp [*]
        · simp [hk]
  | zero i =>
    have h' : i < t.size := h
    dsimp only [FOp.apply]
    rw [Vec.wr_ok h']
    refine Ok.ok ⟨by simp, fun k => ?_⟩
    rw [Vec.get_set]
    show _ = if i = k then _ else _
    by_cases hk : i = k
    · subst hk; simp [h', FOp.val]
    · simp [hk]

theorem foldl_ok {tmax : ℕ} (ops : List (ℕ × FOp)) (t : Vec ℕ) (h : ∀ o ∈ ops, o.2.idx < t.size) :
    Ok (ops.foldlM (fun t o => o.2.apply tmax t) t) (fun t' => t'.size = t.size ∧
      ∀ k, t'.get k = eff tmax k (t.get k) (ops.map Prod.snd)) := by
  induction ops generalizing t with
  | nil => exact Ok.pure ⟨rfl, fun k => rfl⟩
  | cons o l ih =>
    rw [List.foldlM_cons]
    refine Ok.bind (apply_ok (h o (by simp))) (fun t1 ht1 => ?_)
    refine (ih t1 (fun o' ho' => by rw [ht1.1]; exact h o' (by simp [ho']))).mono (fun t2 ht2 => ?_)
    refine ⟨ht2.1.trans ht1.1, fun k => ?_⟩
    rw [ht2.2, ht1.2]
    rfl

/-- In a valid interleaving the entry `k` sees exactly the operations of the only thread that accesses it. -/
theorem eff_merge {m : Merge} (hm : m.Valid) (ls : List (List FOp)) (tmax k v t : ℕ)
    (h : ∀ t', t' ≠ t → ∀ o ∈ ls.getD t' [], o.idx ≠ k) :
    eff tmax k v ((m ls).map Prod.snd) = eff tmax k v (ls.getD t []) := by
  rw [← hm ls t]
  have h2 : ∀ o ∈ m ls, o.1 ≠ t → o.2.idx ≠ k := by
    intro o ho hne
    apply h o.1 hne
    rw [← hm ls o.1, List.mem_map]
    exact ⟨o, List.mem_filter.2 ⟨ho, by simp⟩, rfl⟩
  generalize m ls = l at h2
  clear h hm
  induction l generalizing v with
  | nil => rfl
  | cons o l ih =>
    by_cases ht : o.1 = t
    · rw [List.filter_cons_of_pos (by simpa using ht), List.map_cons, List.map_cons]
      exact ih _ (fun o' ho' => h2 o' (by simp [ho']))
    · rw [List.filter_cons_of_neg (by simpa using ht), List.map_cons]
      unfold eff
      rw [List.foldl_cons, if_neg (h2 o (by simp) ht)]
      exact ih _ (fun o' ho' => h2 o' (by simp [ho']))

theorem num_succ_le (i : ℕ) : num (i + 1) ≤ num i + 10 := by
  have key : ∀ r < 48, num (r + 1) ≤ num r + 10 := by decide +kernel
  have h1 : ∀ a r, num (48 * a + r) = 210 * a + num r := by
    intro a r
    unfold num
    rw [show (48 * a + r) / 48 = a + r / 48 by omega, show (48 * a + r) % 48 = r % 48 by omega]
    omega
  have h2 := h1 (i / 48) (i % 48)
  have h3 := h1 (i / 48) (i % 48 + 1)
  have h4 := key (i % 48) (Nat.mod_lt _ (by norm_num))
  rw [show 48 * (i / 48) + i % 48 = i by omega] at h2
  rw [show 48 * (i / 48) + (i % 48 + 1) = i + 1 by omega] at h3
  omega

theorem nextMultiple_ok {q low i0 : ℕ} (hq : 1 ≤ q) (hl : 1 ≤ low) (hb0 : q * num i0 < 2 ^ 63) (hb1 : low + 10 * q < 2 ^ 63) :
    Ok (nextMultiple q low i0) (fun r => ∃ j, i0 ≤ j ∧ r.2 = j + 1 ∧ r.1 = q * num j ∧ low < q * num j ∧
      ∀ j', i0 ≤ j' → j' < j → q * num j' ≤ low) := by
  unfold nextMultiple
  rw [fit_ok (by omega), ok_bind, ceilDiv_ok _ _ hq]
  simp only [ok_bind]
  set Q := (low + q - 1) / q with hQ
  have hQ1 : 1 ≤ Q := by rw [hQ, Nat.le_div_iff_mul_le hq]; omega
  have hQl : q * (Q - 1) < low := by
    have h1 : Q * q ≤ low + q - 1 := Nat.div_mul_le_self _ _
    have h2 : q * (Q - 1) = Q * q - q := by rw [Nat.mul_sub, Nat.mul_comm, Nat.mul_one]
    omega
  rw [getIndex_ok hQ1]
  simp only [ok_bind]
  have hlow : ∀ j', j' < idx Q → q * num j' ≤ low := by
    intro j' hj
    have h1 : num (idx Q) ≤ Q := (num_le_iff hQ1).2 le_rfl
    have h2 := num_lt_num.2 hj
    have : q * num j' ≤ q * (Q - 1) := Nat.mul_le_mul_left _ (by omega)
    omega
  have hQle : Q ≤ low := by
    rw [hQ, ← Nat.lt_succ_iff, Nat.div_lt_iff_lt_mul hq]
    have : low * 1 ≤ low * q := Nat.mul_le_mul_left _ hq
    rw [Nat.succ_mul]
    omega
  have hst : q * num (max i0 (idx Q)) < 2 ^ 63 := by
    rcases le_total i0 (idx Q) with h | h
    · rw [max_eq_right h]
      have h1 : num (idx Q) ≤ Q := (num_le_iff hQ1).2 le_rfl
      have h2 : q * num (idx Q) ≤ q * Q := Nat.mul_le_mul_left _ h1
      have h3 : q * Q = q * (Q - 1) + q := by rw [← Nat.mul_succ]; congr 1; omega
      omega
    · rw [max_eq_left h]
      exact hb0
  have key : ∀ i m : ℕ, ((m = 0 ∧ i = max i0 (idx Q)) ∨ (i0 + 1 ≤ i ∧ m = q * num (i - 1))) → max i0 (idx Q) ≤ i →
      (∀ j', i0 ≤ j' → j' < i → (j' + 1 = i → m = 0) → q * num j' ≤ low) →
      ∀ fuel, (if m ≤ low then low + 1 - i + 1 else 0) < fuel →
      Ok (loop fuel (i, m) (fun ((i, multiple) : ℕ × ℕ) =>
    if multiple ≤ low then do
      let n ← getNumber i
      let m ← fit 63 (q * n)
      pure (.next (i + 1, m))
    else pure (.done (multiple, i)))) (fun r => ∃ j, i0 ≤ j ∧ r.2 = j + 1 ∧ r.1 = q * num j ∧ low < q * num j ∧
      ∀ j', i0 ≤ j' → j' < j → q * num j' ≤ low) := by
    intro i m h1 h2 h3 fuel hf
    refine loop_ok (fun s : ℕ × ℕ => ((s.2 = 0 ∧ s.1 = max i0 (idx Q)) ∨ (i0 + 1 ≤ s.1 ∧ s.2 = q * num (s.1 - 1))) ∧ max i0 (idx Q) ≤ s.1 ∧
      (∀ j', i0 ≤ j' → j' < s.1 → (j' + 1 = s.1 → s.2 = 0) → q * num j' ≤ low))
      (fun s => if s.2 ≤ low then low + 1 - s.1 + 1 else 0) _ ⟨h1, h2, h3⟩ hf ?_
    rintro ⟨i, m⟩ ⟨h1, h2, h3⟩
    dsimp only at h1 h2 h3 ⊢
    refine Ok.ite (fun hm => ?_) (fun hm => ?_)
    · have hfit : q * num i < 2 ^ 63 := by
        rcases h1 with ⟨-, h1⟩ | ⟨h0, h1⟩
        · rw [h1]
          exact hst
        · have h5 := num_succ_le (i - 1)
          rw [show i - 1 + 1 = i by omega] at h5
          have h6 : q * num i ≤ q * (num (i - 1) + 10) := Nat.mul_le_mul_left _ h5
          rw [Nat.mul_add] at h6
          omega
      rw [getNumber_ok, ok_bind, fit_ok hfit, ok_bind]
      refine Ok.pure ⟨⟨Or.inr ⟨by omega, by rw [Nat.add_sub_cancel]⟩, by omega, ?_⟩, ?_⟩
      · intro j' ha hb hc
        rcases Nat.lt_succ_iff_lt_or_eq.1 hb with h | h
        · by_cases he : j' + 1 = i
          · rcases h1 with h1 | h1
            · exact h3 j' ha h (fun _ => h1.1)
            · have : i - 1 = j' := by omega
              rw [← this, ← h1.2]; exact hm
          · exact h3 j' ha h (fun hh => absurd hh he)
        · exfalso
          have h5 : q * num i = 0 := hc (by omega)
          have h6 := Nat.mul_pos hq (num_pos i)
          omega
      · rw [if_pos hm]
        split
        · rename_i h
          have h5 := lt_num i
          have h6 : 1 * num i ≤ q * num i := Nat.mul_le_mul_right _ hq
          omega
        · omega
    · refine Ok.pure ⟨i - 1, ?_⟩
      rcases h1 with h1 | h1
      · omega
      · refine ⟨by omega, by dsimp only; omega, h1.2, by rw [← h1.2]; omega, fun j' ha hb => ?_⟩
        exact h3 j' ha (by omega) (by omega)
  refine key _ 0 (Or.inl ⟨rfl, rfl⟩) le_rfl ?_ _ ?_
  · intro j' h1 h2 _
    exact hlow j' (by omega)
  · rw [if_pos (by omega)]
    omega

/-- A loop over the multiples of `q`: every entry whose number is `q * num j` (`j ≥ j0`) and at most `high` is
accessed once. -/
theorem crossOff_ok {tmax q low high i0 j0 : ℕ} {op : ℕ → FOp} (ap : ℕ → ℕ) (hop : ∀ i, (op i).idx = i)
    (hb : high + 10 * q < 2 ^ 63) (hval : ∀ i v, (op i).val tmax v = ap v) (hq : 1 ≤ q) (hcq : Cop q) (h0 : i0 ≤ j0)
    (hlow : low < q * num j0) (hmin : ∀ j', i0 ≤ j' → j' < j0 → q * num j' ≤ low) (ops : List FOp)
    (hr : ∀ o ∈ ops, low < num o.idx ∧ num o.idx ≤ high) :
    Ok (crossOff q high op (q * num j0) (j0 + 1) ops) (fun ops' =>
      (∀ o ∈ ops', low < num o.idx ∧ num o.idx ≤ high) ∧
      ∀ k, low < num k → num k ≤ high → ∀ v, eff tmax k v ops' =
        if ∃ j, i0 ≤ j ∧ q * num j = num k then ap (eff tmax k v ops) else eff tmax k v ops) := by
  unfold crossOff
  refine loop_ok (fun s : ℕ × ℕ × List FOp => ∃ j, j0 ≤ j ∧ s.1 = q * num j ∧ s.2.1 = j + 1 ∧
      (∀ o ∈ s.2.2, low < num o.idx ∧ num o.idx ≤ high) ∧
      ∀ k v, eff tmax k v s.2.2 =
        if ∃ j', j0 ≤ j' ∧ j' < j ∧ q * num j' = num k then ap (eff tmax k v ops) else eff tmax k v ops)
    (fun s => high + 2 - s.2.1) _ ⟨j0, le_rfl, rfl, rfl, hr, ?_⟩ (by dsimp only; omega) ?_
  · intro k v
    rw [if_neg]
    rintro ⟨j', h1, h2, _⟩
    omega
  · rintro ⟨m, i, l⟩ ⟨j, h1, h2, h3, h4, h5⟩
    dsimp only at h2 h3 h4 h5 ⊢
    subst h2 h3
    have hcop : Cop (q * num j) := cop_mul.2 ⟨hcq, cop_num j⟩
    have hpos := cop_pos hcop
    refine Ok.ite (fun hm => ?_) (fun hm => ?_)
    · have hfit : q * num (j + 1) < 2 ^ 63 := by
        have h6 : q * num (j + 1) ≤ q * (num j + 10) := Nat.mul_le_mul_left _ (num_succ_le j)
        rw [Nat.mul_add] at h6
        omega
      rw [getIndex_ok hpos, ok_bind, getNumber_ok, ok_bind, fit_ok hfit, ok_bind]
      have hji := lt_num j
      have hle : 1 * num j ≤ q * num j := Nat.mul_le_mul_right _ hq
      refine Ok.pure ⟨⟨j + 1, by omega, rfl, rfl, ?_, ?_⟩, by dsimp only; omega⟩
      · intro o ho
        rcases List.mem_append.1 ho with ho | ho
        · exact h4 o ho
        · rw [List.mem_singleton] at ho
          subst ho
          rw [hop, num_idx hcop]
          have : q * num j0 ≤ q * num j := Nat.mul_le_mul_left _ (num_le_num.2 h1)
          omega
      · intro k v
        rw [eff_append_one, hop, hval, h5]
        by_cases hk : idx (q * num j) = k
        · have e : q * num j = num k := by rw [← hk, num_idx hcop]
          have hno : ¬ ∃ j', j0 ≤ j' ∧ j' < j ∧ q * num j' = num k := by
            rintro ⟨j', _, h7, h8⟩
            have := Nat.eq_of_mul_eq_mul_left hq (h8.trans e.symm)
            have := num_inj this
            omega
          rw [if_pos hk, if_neg hno, if_pos ⟨j, h1, by omega, e⟩]
        · rw [if_neg hk]
          congr 1
          apply propext
          constructor
          · rintro ⟨j', a, b, c⟩; exact ⟨j', a, by omega, c⟩
          · rintro ⟨j', a, b, c⟩
            refine ⟨j', a, ?_, c⟩
            by_contra hc
            have : j' = j := by omega
            subst this
            exact hk (by rw [c, idx_num])
    · refine Ok.pure ⟨h4, fun k hk1 hk2 v => ?_⟩
      rw [h5]
      congr 1
      apply propext
      constructor
      · rintro ⟨j', a, b, c⟩; exact ⟨j', by omega, c⟩
      · rintro ⟨j', a, c⟩
        refine ⟨j', ?_, ?_, c⟩
        · by_contra hc
          have := hmin j' a (by omega)
          omega
        · by_contra hc
          have : q * num j ≤ q * num j' := Nat.mul_le_mul_left _ (num_le_num.2 (by omega))
          omega

/-- The primes `≤ pos` that divide `n`, other than `n`. -/
def divs (n pos : ℕ) : Finset ℕ := n.primeFactors.filter (fun p => p ≤ pos ∧ p ≠ n)

/-- The entry of `n` after the primes `≤ pos`. -/
noncomputable def entry (tmax n pos : ℕ) : ℕ :=
  if ∃ p, p.Prime ∧ p ≤ pos ∧ p * p ∣ n then 0
  else if divs n pos = ∅ then tmax
  else if (divs n pos).card % 2 = 1 then n.minFac
  else n.minFac - 1

theorem xor_one_odd {a : ℕ} (h : a % 2 = 1) : a ^^^ 1 = a - 1 := by
  obtain ⟨k, rfl⟩ : ∃ k, a = 2 * k + 1 := ⟨a / 2, by omega⟩
  apply Nat.eq_of_testBit_eq
  intro i
  rw [Nat.testBit_xor]
  cases i with
  | zero => simp
  | succ i =>
    rw [Nat.testBit_succ, Nat.testBit_succ, Nat.testBit_succ]
    rw [show (2 * k + 1) / 2 = k by omega, show (1 : ℕ) / 2 = 0 by norm_num,
      show (2 * k + 1 - 1) / 2 = k by omega]
    simp

theorem xor_one_even {a : ℕ} (h : a % 2 = 0) : a ^^^ 1 = a + 1 := by
  have h1 := xor_one_odd (a := a + 1) (by omega)
  rw [Nat.add_sub_cancel] at h1
  calc a ^^^ 1 = (a + 1 ^^^ 1) ^^^ 1 := by rw [h1]
    _ = a + 1 := by rw [Nat.xor_assoc, Nat.xor_self, Nat.xor_zero]

theorem cop_minFac_odd {n : ℕ} (hc : Cop n) (h1 : n ≠ 1) : n.minFac % 2 = 1 ∧ 11 ≤ n.minFac := by
  have hp := Nat.minFac_prime h1
  have h2 : Cop n.minFac := cop_of_dvd (Nat.minFac_dvd n) hc
  have h3 := cop_ge h2 hp.one_lt.ne'
  refine ⟨?_, h3⟩
  rcases hp.eq_two_or_odd with h | h
  · omega
  · exact h

/-- One step of the sieve on one entry. -/
theorem entry_step {tmax n pos p : ℕ} (hc : Cop n) (hp : p.Prime) (hpos : pos < p)
    (hnext : ∀ q, q.Prime → pos < q → p ≤ q) (hn : n < tmax * tmax) :
    (if p * p ∣ n then 0 else
      if p ∣ n ∧ n ≠ p then
        (if entry tmax n pos = tmax then p % (tmax + 1) else
          if entry tmax n pos ≠ 0 then entry tmax n pos ^^^ 1 else entry tmax n pos)
      else entry tmax n pos) = entry tmax n p := by
  have hn0 : n ≠ 0 := by have := cop_pos hc; omega
  have hle : ∀ q, q.Prime → (q ≤ p ↔ q ≤ pos ∨ q = p) := by
    intro q hq
    constructor
    · intro h
      by_contra hcc
      push Not at hcc
      have := hnext q hq hcc.1
      omega
    · rintro (h | h) <;> omega
  by_cases hsq : p * p ∣ n
  · rw [if_pos hsq]
    unfold entry
    rw [if_pos ⟨p, hp, le_rfl, hsq⟩]
  rw [if_neg hsq]
  have hex : (∃ q, q.Prime ∧ q ≤ p ∧ q * q ∣ n) ↔ ∃ q, q.Prime ∧ q ≤ pos ∧ q * q ∣ n := by
    constructor
    · rintro ⟨q, h1, h2, h3⟩
      rcases (hle q h1).1 h2 with h | h
      · exact ⟨q, h1, h, h3⟩
      · subst h; exact absurd h3 hsq
    · rintro ⟨q, h1, h2, h3⟩; exact ⟨q, h1, by omega, h3⟩
  by_cases hd : p ∣ n ∧ n ≠ p
  · rw [if_pos hd]
    have hins : divs n p = insert p (divs n pos) := by
      unfold divs
      ext q
      simp only [Finset.mem_filter, Finset.mem_insert, Nat.mem_primeFactors]
      constructor
      · rintro ⟨⟨h1, h2, h3⟩, h4, h5⟩
        rcases (hle q h1).1 h4 with h | h
        · exact Or.inr ⟨⟨h1, h2, h3⟩, h, h5⟩
        · exact Or.inl h
      · rintro (rfl | ⟨⟨h1, h2, h3⟩, h4, h5⟩)
        · exact ⟨⟨hp, hd.1, hn0⟩, le_rfl, hd.2.symm⟩
        · exact ⟨⟨h1, h2, h3⟩, by omega, h5⟩
    have hnm : p ∉ divs n pos := by
      unfold divs
      simp only [Finset.mem_filter]
      omega
    have hcard : (divs n p).card = (divs n pos).card + 1 := by
      rw [hins, Finset.card_insert_of_notMem hnm]
    have hne : divs n p ≠ ∅ := by rw [hins]; exact Finset.insert_ne_empty _ _
    have hn1 : n ≠ 1 := by rintro rfl; exact hp.one_lt.ne' (Nat.dvd_one.1 hd.1)
    have hmf := Nat.minFac_prime hn1
    have hodd := cop_minFac_odd hc hn1
    have hnp : ¬ n.Prime := by
      intro h
      exact hd.2 ((Nat.prime_dvd_prime_iff_eq hp h).1 hd.1).symm
    have hmt : n.minFac < tmax := by
      have := Nat.minFac_sq_le_self (n := n) (by omega) hnp
      rw [sq] at this
      by_contra hcc
      push Not at hcc
      have := Nat.mul_le_mul hcc hcc
      omega
    have hmp : n.minFac ≤ p := Nat.minFac_le_of_dvd hp.two_le hd.1
    by_cases hz : ∃ q, q.Prime ∧ q ≤ pos ∧ q * q ∣ n
    · have e1 : entry tmax n pos = 0 := by unfold entry; rw [if_pos hz]
      have e2 : entry tmax n p = 0 := by unfold entry; rw [if_pos (hex.2 hz)]
      rw [e1, e2, if_neg (by omega)]
      simp
    · have e2 : entry tmax n p = if (divs n p).card % 2 = 1 then n.minFac else n.minFac - 1 := by
        unfold entry; rw [if_neg (by rwa [hex]), if_neg hne]
      rw [e2, hcard]
      by_cases hemp : divs n pos = ∅
      · have e1 : entry tmax n pos = tmax := by unfold entry; rw [if_neg hz, if_pos hemp]
        have hmfp : n.minFac = p := by
          by_contra hcc
          have h1 : n.minFac ≤ pos := by
            rcases (hle _ hmf).1 hmp with h | h
            · exact h
            · exact absurd h hcc
          have : n.minFac ∈ divs n pos := by
            unfold divs
            simp only [Finset.mem_filter, Nat.mem_primeFactors]
            refine ⟨⟨hmf, Nat.minFac_dvd n, hn0⟩, h1, ?_⟩
            intro h; exact hnp (h ▸ hmf)
          rw [hemp] at this
          simp at this
        rw [e1, if_pos rfl, hemp, Finset.card_empty, if_pos (by norm_num), hmfp, Nat.mod_eq_of_lt (by omega)]
      · have e1 : entry tmax n pos = if (divs n pos).card % 2 = 1 then n.minFac else n.minFac - 1 := by
          unfold entry; rw [if_neg hz, if_neg hemp]
        rw [e1]
        by_cases hpar : (divs n pos).card % 2 = 1
        · rw [if_pos hpar, if_neg (by omega), if_pos (by omega), if_neg (by omega), xor_one_odd hodd.1]
        · rw [if_neg hpar, if_neg (by omega), if_pos (by omega), if_pos (by omega), xor_one_even (by omega)]
          omega
  · rw [if_neg hd]
    have hdv : divs n p = divs n pos := by
      unfold divs
      ext q
      simp only [Finset.mem_filter, Nat.mem_primeFactors]
      constructor
      · rintro ⟨⟨h1, h2, h3⟩, h4, h5⟩
        rcases (hle q h1).1 h4 with h | h
        · exact ⟨⟨h1, h2, h3⟩, h, h5⟩
        · subst h; exact absurd ⟨h2, h5.symm⟩ hd
      · rintro ⟨⟨h1, h2, h3⟩, h4, h5⟩
        exact ⟨⟨h1, h2, h3⟩, by omega, h5⟩
    unfold entry
    rw [hdv]
    simp only [hex]

/-- The operations of one thread. -/
theorem thread_ok {tmax y low high : ℕ} (hl : 1 ≤ low) (hh : high ≤ y) (hy : y < tmax * tmax)
    (hy59 : y < 2 ^ 59) (hl59 : low ≤ 2 * y + 1) :
    Ok (thread (Nat.sqrt y) low high) (fun ops => (∀ o ∈ ops, low < num o.idx ∧ num o.idx ≤ high) ∧
      ∀ k, low < num k → num k ≤ high → ∀ pos, num k ≤ pos → eff tmax k tmax ops = entry tmax (num k) pos) := by
  unfold thread
  rw [getNumber_ok, num_one]
  simp only [ok_bind]
  rw [csub_ok (by omega)]
  simp only [ok_bind]
  refine loop_ok (fun s : ℕ × List FOp => 10 ≤ s.1 ∧ (s.1 = 10 ∨ 11 * s.1 ≤ high) ∧ (∀ o ∈ s.2, low < num o.idx ∧ num o.idx ≤ high) ∧
      ∀ k, low < num k → num k ≤ high → eff tmax k tmax s.2 = entry tmax (num k) s.1)
    (fun s => high + 1 - s.1) _ ⟨by norm_num, Or.inl rfl, by simp, ?_⟩ (by dsimp only; omega) ?_
  · intro k _ _
    have hno : ∀ q, q.Prime → q ∣ num k → ¬ q ≤ 10 := by
      intro q hq hd hle
      have := cop_ge (cop_of_dvd hd (cop_num k)) hq.one_lt.ne'
      omega
    have h1 : ¬ ∃ p, p.Prime ∧ p ≤ 10 ∧ p * p ∣ num k := by
      rintro ⟨p, hp, h, hd⟩
      exact hno p hp ((Nat.dvd_mul_right p p).trans hd) h
    have h2 : divs (num k) 10 = ∅ := by
      unfold divs
      rw [Finset.filter_eq_empty_iff]
      intro q hq
      rw [Nat.mem_primeFactors] at hq
      have := hno q hq.1 hq.2.1
      tauto
    show tmax = entry tmax (num k) 10
    unfold entry
    rw [if_neg h1, if_pos h2]
  · rintro ⟨pos, ops⟩ ⟨h10, hpb, hr, he⟩
    dsimp only at h10 hpb hr he ⊢
    have hnp := nextPrime_spec pos
    have hbert : nextPrime pos ≤ 2 * pos := by
      obtain ⟨q, hq, h1, h2⟩ := Nat.exists_prime_lt_and_le_two_mul pos (by omega)
      exact (nextPrime_min hq h1).trans h2
    have hmin := fun q (hq : q.Prime) (h : pos < q) => nextPrime_min hq h
    generalize nextPrime pos = p at *
    have hp11 : 11 ≤ p := by omega
    have hcp := cop_prime hnp.2 hp11
    rw [fit_ok (by omega), ok_bind]
    refine Ok.bind (nextMultiple_ok (i0 := 1) (by omega) hl (by rw [num_one]; omega) (by omega)) (fun r hr1 => ?_)
    obtain ⟨m, i⟩ := r
    obtain ⟨j, hj1, hj2, hj3, hj4, hj5⟩ := hr1
    dsimp only at hj2 hj3 ⊢
    subst hj2 hj3
    -- the multiples of `p`
    have hmul : ∀ k, (∃ j, 1 ≤ j ∧ p * num j = num k) ↔ (p ∣ num k ∧ num k ≠ p) := by
      intro k
      constructor
      · rintro ⟨j, h1, h2⟩
        refine ⟨⟨num j, h2.symm⟩, ?_⟩
        rw [← h2]
        intro h3
        have h4 := num_le_num.2 h1
        rw [num_one] at h4
        have : p * 11 ≤ p * num j := Nat.mul_le_mul_left _ h4
        omega
      · rintro ⟨⟨q, hq⟩, h2⟩
        have hcq : Cop q := cop_of_dvd (Dvd.intro_left p hq.symm) (cop_num k)
        obtain ⟨j, rfl⟩ := cop_iff.1 hcq
        refine ⟨j, ?_, hq.symm⟩
        by_contra hcc
        have : j = 0 := by omega
        subst this
        rw [num_zero, Nat.mul_one] at hq
        exact h2 hq
    have hsqr : ∀ k, (∃ j, 0 ≤ j ∧ p * p * num j = num k) ↔ p * p ∣ num k := by
      intro k
      constructor
      · rintro ⟨j, _, h2⟩; exact ⟨num j, h2.symm⟩
      · rintro ⟨q, hq⟩
        have hcq : Cop q := cop_of_dvd (Dvd.intro_left _ hq.symm) (cop_num k)
        obtain ⟨j, rfl⟩ := cop_iff.1 hcq
        exact ⟨j, Nat.zero_le _, hq.symm⟩
    rw [fit_ok (show p * 11 < 2 ^ 63 by omega), ok_bind]
    refine Ok.ite (fun hbr => ?_) (fun hbr => ?_)
    · refine Ok.pure ⟨hr, fun k hk1 hk2 pos' hpos' => ?_⟩
      rw [he k hk1 hk2]
      have hnk : ∀ q, q.Prime → q ∣ num k → num k ≠ q → q ≤ pos := by
        intro q hq hd hne
        by_contra hcc
        have h1 := hmin q hq (by omega)
        obtain ⟨e, he'⟩ := hd
        have hce : Cop e := cop_of_dvd (Dvd.intro_left q he'.symm) (cop_num k)
        have h2 := cop_ge hce (by rintro rfl; rw [Nat.mul_one] at he'; exact hne he')
        have : p * 11 ≤ q * e := Nat.mul_le_mul h1 h2
        omega
      have hd1 : divs (num k) pos = divs (num k) pos' := by
        unfold divs
        ext q
        simp only [Finset.mem_filter, Nat.mem_primeFactors]
        constructor
        · rintro ⟨⟨a, b, c⟩, _, d⟩
          exact ⟨⟨a, b, c⟩, (Nat.le_of_dvd (num_pos k) b).trans hpos', d⟩
        · rintro ⟨⟨a, b, c⟩, _, d⟩
          exact ⟨⟨a, b, c⟩, hnk q a b d.symm, d⟩
      have hex : (∃ p, p.Prime ∧ p ≤ pos ∧ p * p ∣ num k) ↔ ∃ p, p.Prime ∧ p ≤ pos' ∧ p * p ∣ num k := by
        constructor
        · rintro ⟨q, a, b, c⟩
          exact ⟨q, a, (Nat.le_of_dvd (num_pos k) ((Nat.dvd_mul_right q q).trans c)).trans hpos', c⟩
        · rintro ⟨q, a, b, c⟩
          refine ⟨q, a, hnk q a ((Nat.dvd_mul_right q q).trans c) ?_, c⟩
          intro h
          have h1 := Nat.le_of_dvd (num_pos k) c
          rw [h] at h1
          have : q * 2 ≤ q * q := Nat.mul_le_mul_left _ a.two_le
          have := a.pos
          omega
      unfold entry
      rw [hd1]
      simp only [hex]
    · refine Ok.bind (crossOff_ok (tmax := tmax) (fun v => if v = tmax then p % (tmax + 1) else
        if v ≠ 0 then v ^^^ 1 else v) (fun _ => rfl) (by omega) (fun _ _ => rfl) (by omega) hcp hj1 hj4 hj5 ops hr)
        (fun ops1 h1 => ?_)
      have hstep := fun k (hk : num k ≤ high) => entry_step (tmax := tmax) (cop_num k) hnp.2 hnp.1 hmin
        (show num k < tmax * tmax by omega)
      refine Ok.ite (fun hs => ?_) (fun hs => ?_)
      · have hpp : p * p ≤ y := Nat.le_sqrt.1 hs
        rw [fit_ok (show p * p < 2 ^ 63 by omega), ok_bind]
        refine Ok.bind (nextMultiple_ok (i0 := 0) (Nat.mul_pos (by omega) (by omega)) hl (by rw [num_zero]; omega) (by omega)) (fun r hr2 => ?_)
        obtain ⟨m2, i2⟩ := r
        obtain ⟨j2, hk1, hk2, hk3, hk4, hk5⟩ := hr2
        dsimp only at hk2 hk3 ⊢
        subst hk2 hk3
        refine Ok.bind (crossOff_ok (tmax := tmax) (fun _ => 0) (fun _ => rfl) (by omega) (fun _ _ => rfl)
          (Nat.mul_pos (by omega) (by omega)) (cop_mul.2 ⟨hcp, hcp⟩) hk1 hk4 hk5 ops1 h1.1) (fun ops2 h2 => ?_)
        refine Ok.pure ⟨⟨by omega, Or.inr (by omega), h2.1, fun k ha hb => ?_⟩, by dsimp only; omega⟩
        dsimp only
        rw [h2.2 k ha hb, h1.2 k ha hb, he k ha hb]
        rw [← hstep k hb]
        simp only [hmul, hsqr]
      · refine Ok.pure ⟨⟨by omega, Or.inr (by omega), h1.1, fun k ha hb => ?_⟩, by dsimp only; omega⟩
        dsimp only
        rw [h1.2 k ha hb, he k ha hb, ← hstep k hb]
        have hns : ¬ p * p ∣ num k := by
          intro hd
          have h3 := Nat.le_of_dvd (num_pos k) hd
          exact hs (Nat.le_sqrt.2 (by omega))
        rw [if_neg hns]
        simp only [hmul]

/-- A complete table for numbers `≤ y`. -/
def Table (tmax y : ℕ) (t : Vec ℕ) : Prop :=
  t.size = idx (max 8 y) + 1 ∧ ∀ k, k ≤ idx (max 8 y) → t.get k = entry tmax (num k) (num k)

theorem build_ok {tmax : ℕ} {merge : Merge} (hm : merge.Valid) {y : ℕ} (threads : ℤ) (ht : 8 ≤ tmax)
    (hy : y ≤ max' tmax) (hy59 : y < 2 ^ 59) : Ok (build tmax merge y threads) (Table tmax y) := by
  unfold build
  rw [if_neg (by omega)]
  have hy8 : max 8 y < tmax * tmax := by
    unfold max' at hy
    have h1 : 8 * 8 ≤ tmax * tmax := Nat.mul_le_mul ht ht
    have h2 : (tmax - 1) ^ 2 ≤ tmax * tmax := by
      rw [sq]; exact Nat.mul_le_mul (by omega) (by omega)
    have h3 : 7 ^ 2 ≤ (tmax - 1) ^ 2 := Nat.pow_le_pow_left (by omega) 2
    omega
  unfold Table
  dsimp only
  generalize hY : max 8 y = Y at *
  have hY8 : 8 ≤ Y := by omega
  have hY59 : Y < 2 ^ 59 := by omega
  rw [getIndex_ok (by omega)]
  simp only [ok_bind]
  obtain ⟨n, hn, hn1, hnY⟩ : ∃ n : ℕ, idealNumThreads threads Y (10 ^ 7) = .ok (n : ℤ) ∧ 1 ≤ n ∧ n ≤ Y := by
    unfold idealNumThreads
    dsimp only
    rw [if_neg (by norm_num)]
    simp only [pure_eq_ok, ok_bind]
    exact ⟨(max 1 (min threads (Int.tdiv Y (max 1 (10 ^ 7))))).toNat, by rw [Int.toNat_of_nonneg (by omega)], by omega,
      by have : Int.tdiv Y (max 1 (10 ^ 7)) = (Y : ℤ) / 10 ^ 7 := by rw [Int.tdiv_eq_ediv_of_nonneg (by omega)]; norm_num
         omega⟩
  rw [hn]
  simp only [ok_bind, Int.toNat_natCast]
  rw [fit_ok (by omega), ok_bind, ceilDiv_ok _ _ hn1]
  simp only [ok_bind]
  set d := (Y + n - 1) / n with hd
  have hdn : Y ≤ d * n := by
    have h1 : Y + n - 1 < (d + 1) * n := by
      rw [hd, Nat.mul_comm]; exact Nat.lt_mul_div_succ _ hn1
    rw [Nat.add_mul, Nat.one_mul] at h1
    omega
  have hdn2 : d * n ≤ Y + n := by
    have := Nat.div_mul_le_self (Y + n - 1) n
    rw [← hd] at this
    omega
  have hd1 : 1 ≤ d := by
    refine Nat.pos_of_ne_zero (fun h => ?_)
    rw [h] at hdn; omega
  refine Ok.bind (P := fun ls : List (List FOp) => ls.length = n ∧ ∀ t, t < n →
    (∀ o ∈ ls.getD t [], 1 + d * t < num o.idx ∧ num o.idx ≤ min (1 + d * t + d) Y) ∧
    ∀ k, 1 + d * t < num k → num k ≤ min (1 + d * t + d) Y →
      eff tmax k tmax (ls.getD t []) = entry tmax (num k) (num k)) ?_ (fun ls hls => ?_)
  · refine (forUp_ok (fun i (ls : List (List FOp)) => ls.length = i ∧ ∀ t, t < i →
      (∀ o ∈ ls.getD t [], 1 + d * t < num o.idx ∧ num o.idx ≤ min (1 + d * t + d) Y) ∧
      ∀ k, 1 + d * t < num k → num k ≤ min (1 + d * t + d) Y →
        eff tmax k tmax (ls.getD t []) = entry tmax (num k) (num k)) ⟨rfl, by omega⟩ (by omega)
      (fun t ls _ h2 hls => ?_))
    have hdt : d * t + d ≤ Y + n := by
      have : d * (t + 1) ≤ d * n := Nat.mul_le_mul_left _ (by omega)
      rw [Nat.mul_succ] at this
      omega
    rw [fit_ok (by omega), ok_bind, fit_ok (by omega), ok_bind, fit_ok (by omega), ok_bind]
    refine Ok.bind (Ok.region (thread_ok (tmax := tmax) (y := Y) (low := 1 + d * t) (high := min (1 + d * t + d) Y)
      (by omega) (by omega) hy8 hY59 (by omega))) (fun ops hops => Ok.pure ⟨by simp [hls.1], fun t' ht' => ?_⟩)
    by_cases he : t' = t
    · subst he
      have : (ls ++ [ops]).getD t' [] = ops := by
        rw [← hls.1]; simp
      rw [this]
      exact ⟨hops.1, fun k h3 h4 => hops.2 k h3 h4 _ le_rfl⟩
    · have : (ls ++ [ops]).getD t' [] = ls.getD t' [] := by
        simp only [List.getD_eq_getElem?_getD]
        rw [List.getElem?_append_left (by omega)]
      rw [this]
      exact hls.2 t' (by omega)
  · have hidx : ∀ o ∈ merge ls, o.2.idx < (Vec.mk' (idx Y + 1) tmax).size := by
      intro o ho
      rw [Vec.size_mk']
      have h1 : o.2 ∈ ls.getD o.1 [] := by
        rw [← hm ls o.1, List.mem_map]
        exact ⟨o, List.mem_filter.2 ⟨ho, by simp⟩, rfl⟩
      have ht : o.1 < n := by
        by_contra hc
        rw [List.getD_eq_default _ _ (by omega)] at h1
        simp at h1
      have h2 := ((hls.2 o.1 ht).1 _ h1).2
      have := (num_le_iff (by omega)).1 (show num o.2.idx ≤ Y by omega)
      omega
    refine (foldl_ok (tmax := tmax) (merge ls) _ hidx).mono (fun t ht => ⟨by rw [ht.1, Vec.size_mk'], fun k hk => ?_⟩)
    rw [ht.2, Vec.get_mk' _ _ _ (by omega)]
    have hkY : num k ≤ Y := (num_le_iff (by omega)).2 hk
    by_cases hk1 : num k = 1
    · -- the number 1 is not accessed
      have : eff tmax k tmax ((merge ls).map Prod.snd) = tmax := by
        apply eff_of_filter_nil
        intro o ho
        rw [List.mem_map] at ho
        obtain ⟨o', ho', rfl⟩ := ho
        intro hc
        have h1 : o'.2 ∈ ls.getD o'.1 [] := by
          rw [← hm ls o'.1, List.mem_map]
          exact ⟨o', List.mem_filter.2 ⟨ho', by simp⟩, rfl⟩
        have ht : o'.1 < n := by
          by_contra hc
          rw [List.getD_eq_default _ _ (by omega)] at h1
          simp at h1
        have h2 := ((hls.2 o'.1 ht).1 _ h1).1
        rw [hc, hk1] at h2
        omega
      rw [this, hk1]
      unfold entry
      rw [if_neg, if_pos]
      · simp [divs]
      · rintro ⟨p, hp, h1, _⟩
        have := hp.two_le
        omega
    · have hk2 : 2 ≤ num k := by have := num_pos k; omega
      set t0 := (num k - 2) / d with ht0
      have e1 : d * t0 ≤ num k - 2 := Nat.mul_div_le _ _
      have e2 : num k - 2 < d * (t0 + 1) := Nat.lt_mul_div_succ _ hd1
      rw [Nat.mul_add, Nat.mul_one] at e2
      have ht0n : t0 < n := by
        rw [ht0, Nat.div_lt_iff_lt_mul hd1, Nat.mul_comm]
        omega
      rw [eff_merge hm ls tmax k tmax t0]
      · exact (hls.2 t0 ht0n).2 k (by omega) (by omega)
      · intro t' ht' o ho hc
        have ht'n : t' < n := by
          by_contra hcc
          rw [List.getD_eq_default _ _ (by omega)] at ho
          simp at ho
        have h2 := (hls.2 t' ht'n).1 o ho
        rw [hc] at h2
        rcases Nat.lt_or_gt_of_ne ht' with h | h
        · have : d * (t' + 1) ≤ d * t0 := Nat.mul_le_mul_left _ h
          rw [Nat.mul_add] at this
          omega
        · have : d * (t0 + 1) ≤ d * t' := Nat.mul_le_mul_left _ h
          rw [Nat.mul_add] at this
          omega

theorem entry_eq_zero {tmax n : ℕ} (hc : Cop n) (ht : tmax ≠ 0) : entry tmax n n = 0 ↔ ¬ Squarefree n := by
  have hn := cop_pos hc
  have key : (∃ p, p.Prime ∧ p ≤ n ∧ p * p ∣ n) ↔ ¬ Squarefree n := by
    rw [Nat.squarefree_iff_prime_squarefree]
    push Not
    constructor
    · rintro ⟨p, h1, _, h3⟩; exact ⟨p, h1, h3⟩
    · rintro ⟨p, h1, h3⟩
      exact ⟨p, h1, Nat.le_of_dvd hn ((Nat.dvd_mul_right p p).trans h3), h3⟩
  rw [← key]
  unfold entry
  split
  · tauto
  · rename_i h
    simp only [h, iff_false]
    split
    · exact ht
    · rename_i h2
      have h1 : n ≠ 1 := by
        rintro rfl
        exact h2 (by simp [divs])
      have := cop_minFac_odd hc h1
      split <;> omega

theorem divs_self {n : ℕ} (h1 : 1 < n) (hp : ¬ n.Prime) : divs n n = n.primeFactors := by
  unfold divs
  apply Finset.filter_true_of_mem
  intro q hq
  rw [Nat.mem_primeFactors] at hq
  exact ⟨Nat.le_of_dvd (by omega) hq.2.1, by rintro rfl; exact hp hq.1⟩

theorem divs_prime {n : ℕ} (hp : n.Prime) : divs n n = ∅ := by
  unfold divs
  rw [Finset.filter_eq_empty_iff]
  intro q hq
  rw [Nat.mem_primeFactors] at hq
  have := (Nat.prime_dvd_prime_iff_eq hq.1 hp).1 hq.2.1
  tauto

theorem entry_squarefree {tmax n : ℕ} (hs : Squarefree n) (h1 : 1 < n) :
    entry tmax n n = if n.Prime then tmax else if n.primeFactors.card % 2 = 1 then n.minFac else n.minFac - 1 := by
  unfold entry
  rw [if_neg]
  · by_cases hp : n.Prime
    · rw [if_pos (divs_prime hp), if_pos hp]
    · rw [divs_self h1 hp, if_neg, if_neg hp]
      rw [Nat.primeFactors_eq_empty]
      omega
  · rintro ⟨p, hp, _, h⟩
    exact (Nat.squarefree_iff_prime_squarefree.1 hs) p hp h

/-- The comparison `prime < lpf(m)` of the program. -/
theorem lt_entry {tmax n p : ℕ} (hc : Cop n) (hpn : p < n) (hpt : p < tmax) (hp1 : 1 ≤ p) (hp : p % 2 = 1) :
    p < entry tmax n n ↔ Squarefree n ∧ ∀ q, q.Prime → q ∣ n → p < q := by
  by_cases hs : Squarefree n
  · have h1 : 1 < n := by omega
    rw [entry_squarefree hs h1]
    by_cases hpr : n.Prime
    · rw [if_pos hpr]
      refine ⟨fun _ => ⟨hs, fun q hq hd => ?_⟩, fun _ => hpt⟩
      rw [(Nat.prime_dvd_prime_iff_eq hq hpr).1 hd]; exact hpn
    · rw [if_neg hpr]
      have hodd := cop_minFac_odd hc (by omega)
      have key : p < n.minFac ↔ ∀ q, q.Prime → q ∣ n → p < q := by
        constructor
        · intro h q hq hd
          exact lt_of_lt_of_le h (Nat.minFac_le_of_dvd hq.two_le hd)
        · intro h
          exact h _ (Nat.minFac_prime (by omega)) (Nat.minFac_dvd n)
      rw [← key]
      simp only [hs, true_and]
      split <;> omega
  · rw [(entry_eq_zero hc (by omega)).2 hs]
    simp [hs]

/-- The parity of the entry is the Möbius function. -/
theorem entry_mu {tmax n : ℕ} (hc : Cop n) (hs : Squarefree n) (h1 : 1 < n) (ht : tmax % 2 = 1) :
    (if entry tmax n n % 2 = 1 then (-1 : ℤ) else 1) = ArithmeticFunction.moebius n := by
  rw [entry_squarefree hs h1]
  have hodd := cop_minFac_odd hc (by omega)
  by_cases hpr : n.Prime
  · rw [if_pos hpr, if_pos ht, ArithmeticFunction.moebius_apply_prime hpr]
  · rw [if_neg hpr, ArithmeticFunction.moebius_apply_of_squarefree hs]
    have e : ArithmeticFunction.cardFactors n = n.primeFactors.card := by
      rw [← (ArithmeticFunction.cardDistinctFactors_eq_cardFactors_iff_squarefree (by omega)).2 hs]
      rfl
    rw [e]
    split
    · rename_i h
      rw [if_pos hodd.1, Odd.neg_one_pow (Nat.odd_iff.2 h)]
    · rename_i h
      rw [if_neg (by omega), Even.neg_one_pow (Nat.even_iff.2 (by omega))]

end FactorTable
end PS
