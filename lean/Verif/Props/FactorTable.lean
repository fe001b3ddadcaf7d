import Verif.Proof.FactorTable

/-!
# Properties C26 and C27: FactorTable
-/

namespace PS
open FactorTable

/-- `get_number(get_index(n))` is the largest number `≤ n` coprime to 210, for every `n ≥ 1`. -/
theorem C27_round_down (n : ℕ) (hn : 1 ≤ n) : Ok (getIndex n) (fun i => Ok (getNumber i) (fun m =>
    m ≤ n ∧ Nat.Coprime m 210 ∧ ∀ m', m' ≤ n → Nat.Coprime m' 210 → m' ≤ m)) := by
  rw [getIndex_ok hn]
  refine Ok.ok ?_
  rw [getNumber_ok]
  refine Ok.ok ⟨(num_le_iff hn).2 le_rfl, cop_num _, fun m' h1 h2 => ?_⟩
  obtain ⟨i, rfl⟩ := cop_iff.1 h2
  exact num_le_num.2 ((num_le_iff hn).1 h1)

/-- `get_index(get_number(i)) = i` for every index. -/
theorem C27_index_number (i : ℕ) : Ok (getNumber i) (fun n => getIndex n = .ok i) := by
  rw [getNumber_ok]
  exact Ok.ok (by rw [getIndex_ok (num_pos i), idx_num])

/-- `number(i) > n` iff `i > get_index(n)`: the loops `for (m = max_m; m > min_m; m--)` over indexes visit
exactly the numbers of the interval. -/
theorem C27_galois (n i : ℕ) (hn : 1 ≤ n) : Ok (getIndex n) (fun k => Ok (getNumber i) (fun m => n < m ↔ k < i)) := by
  rw [getIndex_ok hn]
  refine Ok.ok ?_
  rw [getNumber_ok]
  refine Ok.ok ?_
  have := num_le_iff (i := i) hn
  omega

/-- Every number coprime to 210 has an index. -/
theorem C27_surjective (n : ℕ) (h : Nat.Coprime n 210) : Ok (getIndex n) (fun i => getNumber i = .ok n) := by
  rw [getIndex_ok (cop_pos h)]
  exact Ok.ok (by rw [getNumber_ok, num_idx h])

/-- Non-vacuity. -/
example : getIndex 1000000007 = .ok 228571429 ∧ getNumber 228571429 = .ok 1000000007 ∧ getIndex 10 = .ok 0 ∧
    getIndex 210 = .ok 47 := by decide +kernel

/-- The table built for `y` (entries of type `uint16_t` or `uint32_t`), for every thread count and every
interleaving of the threads: for `1 < n ≤ y` coprime to 210, `lpf` is 0 iff `n` has a squared prime factor, `mu`
is the Möbius function, and `p < lpf` decides whether all prime factors of `n` exceed the odd prime
`p ≤ √y`, `p < n`.  No `int64_t` variable overflows; from about `y = 2^63 / 11` on, `square * get_number(j)` does. -/
theorem C26_factor_table (tmax : ℕ) (htm : tmax = 2 ^ 16 - 1 ∨ tmax = 2 ^ 32 - 1) (merge : Merge)
    (hm : merge.Valid) (y : ℕ) (threads : ℤ) (hy : y ≤ max' tmax) (hy59 : y < 2 ^ 59) :
    Ok (build tmax merge y threads) (fun t => ∀ n, 1 < n → n ≤ y → Nat.Coprime n 210 →
      Ok (getIndex n) (fun i => Ok (lpf t i) (fun v => (v = 0 ↔ ¬ Squarefree n) ∧
          ∀ p, p.Prime → p ≠ 2 → p < n → p * p ≤ y →
            (p < v ↔ Squarefree n ∧ ∀ q, q.Prime → q ∣ n → p < q)) ∧
        (Squarefree n → FactorTable.mu t i = .ok (ArithmeticFunction.moebius n)))) := by
  have ht : 8 ≤ tmax ∧ tmax % 2 = 1 := by omega
  refine (build_ok hm threads ht.1 hy hy59).mono (fun t h n h1 h2 hc => ?_)
  rw [getIndex_ok (by omega)]
  have hle : idx n ≤ idx (max 8 y) := by
    have := (num_le_iff (i := idx n) (n := max 8 y) (by omega)).1
    rw [num_idx hc] at this
    exact this (by omega)
  have hget := h.2 _ hle
  rw [num_idx hc] at hget
  have hsz : idx n < t.size := by rw [h.1]; omega
  refine Ok.ok ⟨?_, fun hs => ?_⟩
  · unfold lpf
    rw [Vec.rd_ok hsz, hget]
    refine Ok.ok ⟨entry_eq_zero hc (by omega), fun p hp hp2 hpn hpy => ?_⟩
    refine lt_entry hc hpn ?_ hp.pos (hp.eq_two_or_odd.resolve_left hp2)
    by_contra hcc
    push Not at hcc
    have h3 := Nat.mul_le_mul hcc hcc
    unfold max' at hy
    have h4 : (tmax - 1) ^ 2 ≤ tmax * tmax := by rw [sq]; exact Nat.mul_le_mul (by omega) (by omega)
    have h5 : 0 < (tmax - 1) ^ 2 := Nat.pow_pos (by omega)
    omega
  · unfold FactorTable.mu
    rw [Vec.rd_ok hsz, hget]
    simp only [ok_bind, pure_eq_ok]
    rw [entry_mu hc hs h1 ht.2]

/-- The table does not depend on the number of threads or on their interleaving. -/
theorem C26_deterministic (tmax : ℕ) (htm : tmax = 2 ^ 16 - 1 ∨ tmax = 2 ^ 32 - 1) (m1 m2 : Merge)
    (h1 : m1.Valid) (h2 : m2.Valid) (y : ℕ) (threads1 threads2 : ℤ) (hy : y ≤ max' tmax) (hy59 : y < 2 ^ 59) :
    ∃ t1 t2, build tmax m1 y threads1 = .ok t1 ∧ build tmax m2 y threads2 = .ok t2 ∧ t1.size = t2.size ∧
      ∀ i, i < t1.size → t1.get i = t2.get i := by
  obtain ⟨t1, e1, a1, b1⟩ := build_ok h1 threads1 (by omega) hy hy59
  obtain ⟨t2, e2, a2, b2⟩ := build_ok h2 threads2 (by omega) hy hy59
  refine ⟨t1, t2, e1, e2, by rw [a1, a2], fun i hi => ?_⟩
  rw [b1 i (by omega), b2 i (by omega)]

/-- Numbers above `FactorTable::max()` are refused. -/
theorem C26_limit (tmax : ℕ) (merge : Merge) (y : ℕ) (threads : ℤ) (hy : max' tmax < y) :
    build tmax merge y threads = .error (.thrown "y must be <= FactorTable::max()") := by
  unfold build
  rw [if_pos hy]

/-- Non-vacuity: running the threads one after the other is an interleaving. -/
theorem Merge_seq_valid : Merge.seq.Valid := by
  intro ls t
  have key : ∀ (ls : List (List FOp)) k, (((ls.zipIdx k).map (fun lt => lt.1.map (fun o => (lt.2, o)))).flatten.filter
      (fun o => o.1 = t)).map Prod.snd = if k ≤ t then ls.getD (t - k) [] else [] := by
    intro ls
    induction ls with
    | nil => intro k; simp
    | cons l ls ih =>
      intro k
      rw [List.zipIdx_cons, List.map_cons, List.flatten_cons, List.filter_append, List.map_append, ih]
      by_cases hk : k = t
      · subst hk
        rw [List.filter_eq_self.2 (by simp), if_neg (by omega), if_pos le_rfl]
        simp [List.map_map, Function.comp_def]
      · rw [List.filter_eq_nil_iff.2 (by
          intro o ho
          rw [List.mem_map] at ho
          obtain ⟨a, _, rfl⟩ := ho
          simpa using hk)]
        simp only [List.map_nil, List.nil_append]
        by_cases h : k ≤ t
        · rw [if_pos (by omega), if_pos h, show t - k = (t - (k + 1)) + 1 by omega, List.getD_cons_succ]
        · rw [if_neg (by omega), if_neg h]
  have := key ls 0
  rw [if_pos (by omega)] at this
  exact this

example : Ok (build (2 ^ 16 - 1) Merge.seq (4 * 10 ^ 9) 8) (fun t => Ok (getIndex 143) (fun i =>
    FactorTable.mu t i = .ok (ArithmeticFunction.moebius 143))) :=
  (C26_factor_table _ (Or.inl rfl) _ Merge_seq_valid _ _ (by decide +kernel) (by norm_num)).mono (fun t h =>
    (h 143 (by norm_num) (by norm_num) (by decide)).mono (fun i hi => hi.2 (by decide +kernel)))

end PS
