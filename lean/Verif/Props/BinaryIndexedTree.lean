import Verif.Proof.BinaryIndexedTree

/-! # C30: the binary indexed tree -/

namespace PS
open Finset BIT

theorem BIT.updates_ok {size low : ℕ} {b : ℕ → Bool} (h63 : low + 2 * size ≤ 2 ^ 63) (ns : List ℕ) : ∀ {a : ℕ → ℤ} {t : BIT} (done : List ℕ),
    Rep a size t → (∀ i, a i = if b i ∧ i ∉ done then ((low + 2 * i : ℕ) : ℤ) else 0) →
    ns.Nodup → (∀ i ∈ ns, i ∉ done) → (∀ i ∈ ns, i < size ∧ b i) →
    Ok (ns.foldlM (fun t i => update t (low + 2 * i) low) t)
      (Rep (fun i => if b i ∧ i ∉ done ∧ i ∉ ns then ((low + 2 * i : ℕ) : ℤ) else 0) size) := by
  induction ns with
  | nil =>
    intro a t done h ha _ _ _
    have : a = (fun i => if b i ∧ i ∉ done ∧ i ∉ ([] : List ℕ) then ((low + 2 * i : ℕ) : ℤ) else 0) := by
      funext i; rw [ha i]; simp
    rw [← this]
    exact Ok.ok h
  | cons n ns ih =>
    intro a t done h ha hnd hd hb
    rw [List.foldlM_cons]
    have hdiv : (low + 2 * n - low) / 2 = n := by omega
    have hbn := hb n (List.mem_cons_self ..)
    refine Ok.bind (update_ok (a' := fun i => if b i ∧ i ∉ (n :: done) then ((low + 2 * i : ℕ) : ℤ) else 0)
      (small_sieve h63) h (by omega) (by rw [hdiv]; exact hbn.1) (fun i => ?_)) (fun t' ht' => ?_)
    · rw [hdiv, ha i]
      by_cases hi : i = n
      · subst hi
        have h1 : b i ∧ i ∉ done := ⟨hbn.2, hd i (List.mem_cons_self ..)⟩
        rw [if_pos rfl, if_pos h1]
        simp
      · rw [if_neg hi]
        simp [hi]
    · have := ih (a := fun i => if b i ∧ i ∉ (n :: done) then ((low + 2 * i : ℕ) : ℤ) else 0) (n :: done) ht'
        (fun i => rfl) (List.nodup_cons.1 hnd).2 (fun i hi => ?_)
        (fun i hi => hb i (List.mem_cons_of_mem _ hi))
      · refine this.mono (fun r hr => ?_)
        have he : (fun i => if b i ∧ i ∉ done ∧ i ∉ (n :: ns) then ((low + 2 * i : ℕ) : ℤ) else 0) =
            (fun i => if b i ∧ i ∉ (n :: done) ∧ i ∉ ns then ((low + 2 * i : ℕ) : ℤ) else 0) := by
          funext i
          by_cases h1 : i = n <;> simp [h1]
        rw [he]; exact hr
      · intro hc
        rcases List.mem_cons.1 hc with rfl | hc
        · exact (List.nodup_cons.1 hnd).1 hi
        · exact hd i (List.mem_cons_of_mem _ hi) hc

/-- `init` on any sieve, then the updates for any sequence `ns` of distinct unsieved elements, then `sum`:
the result is the sum of the numbers `low + i` over the even positions `i ≤ pos` that are still unsieved.  No counter overflows. -/
theorem C30_tree (t : BIT) (sieveSize low : ℕ) (b : ℕ → Bool) (sieve : ℕ → M Bool) (ns : List ℕ) (pos : ℕ)
    (h63 : low + sieveSize ≤ 2 ^ 63) (hsieve : ∀ k, k < sieveSize / 2 → sieve (2 * k) = .ok (b k))
    (hns : ns.Nodup) (hset : ∀ k ∈ ns, k < sieveSize / 2 ∧ b k = true) (hpos : pos / 2 < sieveSize / 2) :
    (do let t ← init t sieveSize sieve low
        let t ← ns.foldlM (fun t k => update t (low + 2 * k) low) t
        sum t pos) =
      .ok (∑ k ∈ (range (pos / 2 + 1)).filter (fun k => b k = true ∧ k ∉ ns), ((low + 2 * k : ℕ) : ℤ)) := by
  refine Ok.eq (Ok.bind (init_ok (low := low) h63 hsieve) (fun t' ht' => ?_))
  refine Ok.bind (BIT.updates_ok (low := low) (b := b) (by omega) ns [] ht' (by simp) hns (by simp) hset) (fun t2 ht2 => ?_)
  rw [sum_ok (small_sieve (by omega)) ht2 hpos, Finset.sum_filter]
  exact Ok.ok (by simp)

/-- A sieve of 16 numbers starting at 101, with 105 missing; 103 and 111 are crossed off. -/
example : (do let t ← init {} 16 (fun i => .ok (decide (i ≠ 4))) 101
              let t ← [1, 5].foldlM (fun t k => update t (101 + 2 * k) 101) t
              sum t 15) = .ok (101 + 107 + 109 + 113 + 115) := by decide +kernel

end PS
