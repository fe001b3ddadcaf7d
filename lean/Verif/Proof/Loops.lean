import Verif.Model.Loops
import Verif.Proof.PrimeSieve

/-! # Rules for loops that rewrite a table, and for loops over primes -/

namespace PS

variable {α : Type} [Inhabited α]

/-- The loop applies `g` to the visited entries; an iteration finds its entry unchanged. -/
theorem forStep_map' {lo hi step n : ℕ} {v : Vec α} {f : ℕ → Vec α → M (Vec α)} (g : ℕ → α → α)
    (hstep : 0 < step) (hn : v.size = n)
    (hf : ∀ j (w : Vec α), lo ≤ j → (j - lo) % step = 0 → j < hi → w.size = n → w.get j = v.get j →
      Ok (f j w) (fun w' => w'.size = n ∧
      ∀ k, w'.get k = if k = j then g j (w.get j) else w.get k)) :
    Ok (forStep lo hi step v f) (fun v' => v'.size = n ∧
      ∀ k, v'.get k = if lo ≤ k ∧ k < hi ∧ (k - lo) % step = 0 then g k (v.get k) else v.get k) := by
  refine forStep_ok (fun i w => w.size = n ∧ lo ≤ i ∧ (i - lo) % step = 0 ∧
      ∀ k, w.get k = if lo ≤ k ∧ k < hi ∧ k < i ∧ (k - lo) % step = 0 then g k (v.get k) else v.get k)
    _ hstep ⟨hn, le_rfl, by simp, fun k => ?_⟩ (fun i w h1 h2 h3 => ?_) (fun i w h1 h2 h3 => ?_)
  · rw [if_neg (by omega)]
  · obtain ⟨a, _, b, c⟩ := h3
    refine (hf i w h1 b h2 a (by rw [c, if_neg (by omega)])).mono (fun w' hw' => ⟨hw'.1, by omega, ?_, fun k => ?_⟩)
    · rw [show i + step - lo = i - lo + step by omega, Nat.add_mod_right, b]
    · rw [hw'.2 k]
      by_cases hk : k = i
      · subst hk
        rw [if_pos rfl, c, if_neg (by omega), if_pos ⟨h1, h2, by omega, b⟩]
      · rw [if_neg hk, c]
        by_cases hc : lo ≤ k ∧ k < hi ∧ k < i ∧ (k - lo) % step = 0
        · rw [if_pos hc, if_pos ⟨hc.1, hc.2.1, by omega, hc.2.2.2⟩]
        · rw [if_neg hc, if_neg]
          rintro ⟨d1, d2, d3, d4⟩
          apply hc
          refine ⟨d1, d2, ?_, d4⟩
          by_contra hcc
          have hgt : i < k := by omega
          have e : k - lo = (i - lo) + (k - i) := by omega
          have : (k - i) % step = 0 := by
            rw [e, Nat.add_mod, b, Nat.zero_add, Nat.mod_mod] at d4; exact d4
          have := Nat.mod_eq_of_lt (a := k - i) (b := step) (by omega)
          omega
  · obtain ⟨a, _, b, c⟩ := h3
    refine ⟨a, fun k => ?_⟩
    rw [c]
    by_cases hc : lo ≤ k ∧ k < hi ∧ (k - lo) % step = 0
    · rw [if_pos hc, if_pos ⟨hc.1, hc.2.1, by omega, hc.2.2⟩]
    · rw [if_neg hc, if_neg (by tauto)]

theorem forStep_map {lo hi step n : ℕ} {v : Vec α} {f : ℕ → Vec α → M (Vec α)} (g : ℕ → α → α)
    (hstep : 0 < step) (hn : v.size = n)
    (hf : ∀ j (w : Vec α), lo ≤ j → j < hi → w.size = n → Ok (f j w) (fun w' => w'.size = n ∧
      ∀ k, w'.get k = if k = j then g j (w.get j) else w.get k)) :
    Ok (forStep lo hi step v f) (fun v' => v'.size = n ∧
      ∀ k, v'.get k = if lo ≤ k ∧ k < hi ∧ (k - lo) % step = 0 then g k (v.get k) else v.get k) :=
  forStep_map' g hstep hn (fun j w h1 _ h2 h3 _ => hf j w h1 h2 h3)

/-- `lo` a multiple of the step: the loop visits exactly the multiples. -/
theorem forStep_map_dvd' {lo hi step n : ℕ} {v : Vec α} {f : ℕ → Vec α → M (Vec α)} (g : ℕ → α → α)
    (hstep : 0 < step) (hlo : step ∣ lo) (hn : v.size = n)
    (hf : ∀ j (w : Vec α), lo ≤ j → step ∣ j → j < hi → w.size = n → w.get j = v.get j →
      Ok (f j w) (fun w' => w'.size = n ∧
      ∀ k, w'.get k = if k = j then g j (w.get j) else w.get k)) :
    Ok (forStep lo hi step v f) (fun v' => v'.size = n ∧
      ∀ k, v'.get k = if lo ≤ k ∧ k < hi ∧ step ∣ k then g k (v.get k) else v.get k) := by
  refine (forStep_map' g hstep hn (fun j w h1 h4 h2 h3 h5 => hf j w h1
    ((Nat.dvd_sub_iff_left h1 hlo).1 (Nat.dvd_of_mod_eq_zero h4)) h2 h3 h5)).mono (fun v' h => ⟨h.1, fun k => ?_⟩)
  rw [h.2]
  by_cases h1 : lo ≤ k
  · have : (k - lo) % step = 0 ↔ step ∣ k := by
      rw [← Nat.dvd_iff_mod_eq_zero]
      exact (Nat.dvd_sub_iff_left h1 hlo)
    simp [this]
  · simp [h1]

theorem forStep_map_dvd {lo hi step n : ℕ} {v : Vec α} {f : ℕ → Vec α → M (Vec α)} (g : ℕ → α → α)
    (hstep : 0 < step) (hlo : step ∣ lo) (hn : v.size = n)
    (hf : ∀ j (w : Vec α), lo ≤ j → j < hi → w.size = n → Ok (f j w) (fun w' => w'.size = n ∧
      ∀ k, w'.get k = if k = j then g j (w.get j) else w.get k)) :
    Ok (forStep lo hi step v f) (fun v' => v'.size = n ∧
      ∀ k, v'.get k = if lo ≤ k ∧ k < hi ∧ step ∣ k then g k (v.get k) else v.get k) :=
  forStep_map_dvd' g hstep hlo hn (fun j w h1 _ h2 h3 _ => hf j w h1 h2 h3)

theorem wr_map {n : ℕ} {w : Vec α} (hw : w.size = n) {j : ℕ} (hj : j < n) (x : α) :
    Ok (w.wr j x) (fun w' => w'.size = n ∧ ∀ k, w'.get k = if k = j then x else w.get k) := by
  rw [Vec.wr_ok (by omega)]
  refine Ok.ok ⟨by simpa using hw, fun k => ?_⟩
  rw [Vec.get_set]
  by_cases hk : k = j
  · subst hk; simp [hw, hj]
  · rw [if_neg (by tauto), if_neg hk]

theorem forUp_map {lo hi n : ℕ} {v : Vec α} {f : ℕ → Vec α → M (Vec α)} (g : ℕ → α → α)
    (hn : v.size = n)
    (hf : ∀ j (w : Vec α), lo ≤ j → j < hi → w.size = n → Ok (f j w) (fun w' => w'.size = n ∧
      ∀ k, w'.get k = if k = j then g j (w.get j) else w.get k)) :
    Ok (forUp lo hi v f) (fun v' => v'.size = n ∧
      ∀ k, v'.get k = if lo ≤ k ∧ k < hi then g k (v.get k) else v.get k) := by
  refine (forUp_ok' (fun i w => w.size = n ∧
      ∀ k, w.get k = if lo ≤ k ∧ k < hi ∧ k < i then g k (v.get k) else v.get k)
      ⟨hn, fun k => by rw [if_neg (by omega)]⟩ (fun i w h1 h2 h3 => ?_)).mono (fun w hw => ?_)
  · obtain ⟨a, c⟩ := h3
    refine (hf i w h1 h2 a).mono (fun w' hw' => ⟨hw'.1, fun k => ?_⟩)
    rw [hw'.2 k]
    by_cases hk : k = i
    · subst hk
      rw [if_pos rfl, c, if_neg (by omega), if_pos (by omega)]
    · rw [if_neg hk, c]
      by_cases hc : lo ≤ k ∧ k < hi ∧ k < i
      · rw [if_pos hc, if_pos (by omega)]
      · rw [if_neg hc, if_neg (by omega)]
  · refine ⟨hw.1, fun k => ?_⟩
    rw [hw.2]
    by_cases hc : lo ≤ k ∧ k < hi
    · rw [if_pos hc, if_pos (by omega)]
    · rw [if_neg hc, if_neg (by omega)]

theorem skip_nonprime {σ : Type} {Inv : ℕ → σ → Prop} {s : σ}
    (hskip : ∀ k, ¬ (k + 1).Prime → Inv k s → Inv (k + 1) s) {a b : ℕ} (hab : a ≤ b)
    (hnp : ∀ p, a < p → p ≤ b → ¬ p.Prime) (h : Inv a s) : Inv b s := by
  induction b, hab using Nat.le_induction with
  | base => exact h
  | succ k hk ih =>
    exact hskip k (hnp _ (by omega) le_rfl) (ih (fun p h1 h2 => hnp p h1 (by omega)))

theorem forPrimes_ok {σ : Type} {pos hi : ℕ} {s : σ} {f : ℕ → σ → M σ} (Inv : ℕ → σ → Prop)
    (h0 : Inv pos s) (hle : pos ≤ hi)
    (hskip : ∀ k s, pos ≤ k → k < hi → ¬ (k + 1).Prime → Inv k s → Inv (k + 1) s)
    (hf : ∀ p s, p.Prime → pos < p → p ≤ hi → Inv (p - 1) s → Ok (f p s) (Inv p)) :
    Ok (forPrimes pos hi s f) (Inv hi) := by
  induction hn : hi - pos using Nat.strongRecOn generalizing pos s with
  | _ n ih =>
    have hspec := nextPrime_spec pos
    have hmin : ∀ b, b < nextPrime pos → ∀ p, pos < p → p ≤ b → ¬ p.Prime := by
      intro b hb p h1 h2 hp
      have := nextPrime_min hp h1
      omega
    have skip : ∀ b, pos ≤ b → b ≤ hi → b < nextPrime pos → Inv b s := by
      intro b h1 h2 h3
      induction b, h1 using Nat.le_induction with
      | base => exact h0
      | succ k hk ih =>
        exact hskip k s hk (by omega) (hmin _ h3 _ (by omega) le_rfl) (ih (by omega) (by omega))
    unfold forPrimes
    split
    · rename_i hle2
      refine Ok.bind (hf _ s hspec.2 hspec.1 hle2 (skip _ (by omega) (by omega) (by omega)))
        (fun s' hs' => ?_)
      exact ih (hi - nextPrime pos) (by omega) hs' hle2
        (fun k s h1 h2 => hskip k s (by omega) h2)
        (fun p s h1 h2 h3 => hf p s h1 (by omega) h3) rfl
    · exact Ok.ok (skip hi hle le_rfl (by omega))

/-- A sum over primes accumulated by a loop. -/
theorem forPrimes_none {σ : Type} {pos hi : ℕ} {s : σ} {f : ℕ → σ → M σ} (h : hi < nextPrime pos) :
    forPrimes pos hi s f = .ok s := by
  unfold forPrimes
  rw [if_neg (by omega)]

end PS
