import Verif.Props.Main
import Verif.Props.LowBits
import Verif.Proof.LmoRef

/-!
# Properties C51 and C52: no access outside of a table, every loop terminates

In the model every access to a vector with an index outside of it gives the error `oob`, a negative index or size
`neg`, and a loop that does not end within its bound `fuel` (Base.lean).  The theorems say that no run of the
algorithms or of the program gives one of these.
-/

namespace PS
open Lmo (run1 run2 run3 run4 run5 runParallel1)

/-- No access outside of a table, no negative index or size, no division by 0. -/
def InBounds {α : Type} (m : M α) : Prop := m ≠ .error .oob ∧ m ≠ .error .neg ∧ m ≠ .error .divZero

/-- All loops end. -/
def Terminates {α : Type} (m : M α) : Prop := m ≠ .error .fuel

/-- The run gives a value or throws an exception: nothing else happens. -/
def Clean {α : Type} (m : M α) : Prop := (∃ a, m = .ok a) ∨ ∃ msg, m = .error (.thrown msg)

/-- As `Clean`, but the overflow of a signed integer or a bad shift may happen. -/
def Clean' {α : Type} (m : M α) : Prop := Clean m ∨ m = .error .overflow ∨ m = .error .shift

theorem Clean.weaken {α : Type} {m : M α} (h : Clean m) : Clean' m := Or.inl h

theorem Clean.of_ok {α : Type} {m : M α} {P : α → Prop} (h : Ok m P) : Clean m := Or.inl ⟨_, h.choose_spec.1⟩

theorem Clean'.inBounds {α : Type} {m : M α} (h : Clean' m) : InBounds m := by
  rcases h with (⟨a, h⟩ | ⟨a, h⟩) | h | h <;> rw [h] <;> exact ⟨by simp, by simp, by simp⟩

theorem Clean'.terminates {α : Type} {m : M α} (h : Clean' m) : Terminates m := by
  rcases h with (⟨a, h⟩ | ⟨a, h⟩) | h | h <;> rw [h] <;> simp [Terminates]

theorem Clean'.bind {α β : Type} {m : M α} {f : α → M β} (h : Clean' m) (hf : ∀ a, m = .ok a → Clean' (f a)) :
    Clean' (m >>= f) := by
  rcases h with (⟨a, h⟩ | ⟨a, h⟩) | h | h
  · rw [h]; exact hf a h
  · rw [h]; exact Or.inl (Or.inr ⟨a, rfl⟩)
  · rw [h]; exact Or.inr (Or.inl rfl)
  · rw [h]; exact Or.inr (Or.inr rfl)

/-! ## The algorithms -/

/-- `pi(x)` for an `x` within the limit returns: no exception, no undefined behaviour, for every schedule.  This
includes the `x` for which the result is wrong (C01). -/
theorem runPi_ok (e : Pi.Env) (x : ℕ) (threads : ℤ) (hv : e.Valid) (hth : 1 ≤ threads)
    (hx : x < 2 ^ 127) (hl103 : x < 2 ^ 103 ∨ e.limit x < x) (hr : threads ≤ 2 ^ 26 ∨ e.Reach x) : Clean (runPi e x threads) := by
  rcases Nat.lt_or_ge x 2 with h2 | h2
  · exact .of_ok (C04_pi_small e x threads (by omega))
  rcases Nat.lt_or_ge (e.limit x) x with hl | hl
  · exact Or.inr ⟨_, C43_throws e x threads hv.fp h2 hx hl⟩
  · have hlt : x < 2 ^ 103 := hl103.resolve_right (by omega)
    rcases hr with hr | hr
    · exact .of_ok (C72_low64 e x threads hv hth hr hl hlt)
    · exact .of_ok (C72_low128 e x threads hv hth hr)

theorem runPi_clean (e : Pi.Env) (x : ℤ) (threads : ℤ) (hv : e.Valid) (hth : 1 ≤ threads) (hx : x < 2 ^ 127)
    (hl : x < 2 ^ 103 ∨ e.limit x.toNat < x) (hr : threads ≤ 2 ^ 26 ∨ e.Reach x.toNat) : Clean (runPi e x threads) := by
  rcases lt_or_ge x 2 with h2 | h2
  · exact .of_ok (C04_pi_small e x threads h2)
  obtain ⟨n, rfl⟩ := Int.eq_ofNat_of_zero_le (by omega : 0 ≤ x)
  exact runPi_ok e n threads hv hth (by exact_mod_cast hx) (by simp at hl; omega) hr

open Lmo in
theorem toI64_clean {r : M I256} (h : Clean' r) : Clean' (toI64 r) := by
  unfold toI64
  refine h.bind (fun r _ => ?_)
  refine Clean'.bind ?_ (fun v _ => Or.inl (Or.inl ⟨_, rfl⟩))
  unfold I256.toSigned
  split
  · dsimp only
    split
    · exact Or.inr (Or.inl rfl)
    · exact Or.inl (Or.inl ⟨_, rfl⟩)
  · exact Or.inl (Or.inl ⟨_, rfl⟩)

open Lmo in
/-- A run of `piLmo` is clean if it is clean at a greater width of `phi`. -/
theorem rf_clean {α : Type} {m m' : M α} {P : α → Prop} (h : Rf m m') (hm : Ok m' P) : Clean' m := by
  rcases h.ok hm with h | h
  · exact (Clean.of_ok h).weaken
  · exact Or.inr (Or.inl h)

open Lmo in
theorem lmo_clean (e : Pi.Env) (x : ℤ) (threads : ℤ) (hv : Lmo.EnvValid e) (hth : 1 ≤ threads) (hx : x < 2 ^ 63)
    (hy : 2 ≤ x → e.yL x.toNat < 2 ^ 31) :
    Clean (run1 e x) ∧ Clean' (run2 e x) ∧ Clean' (run3 e x) ∧ Clean' (run4 e x) ∧ Clean' (run5 e x) ∧
      Clean (runParallel1 e x threads) := by
  rcases lt_or_ge x 2 with h2 | h2
  · obtain ⟨a1, a2, a3, a4, a5, a6⟩ := C04_lmo_small e x threads h2
    exact ⟨.of_ok a1, (Clean.of_ok a2).weaken, (Clean.of_ok a3).weaken, (Clean.of_ok a4).weaken, (Clean.of_ok a5).weaken,
      .of_ok a6⟩
  obtain ⟨n, rfl⟩ := Int.eq_ofNat_of_zero_le (by omega : 0 ≤ x)
  have hb : n < 2 ^ 63 := by exact_mod_cast hx
  have hy31 : e.yL n < 2 ^ 31 := hy h2
  have h2' : 2 ≤ n := by exact_mod_cast h2
  obtain ⟨tiny, t1, ht⟩ := PhiTiny.build_ok
  obtain ⟨h1, hyx, h3⟩ := Pi.yL_facts hv.fp (by omega : 1 ≤ n) (by omega)
  obtain ⟨c1, c2, c3⟩ := c_cases (e.yL n)
  have hz := S2Hard.z_le hb h3
  have hz62 : n / e.yL n < 2 ^ 62 := by omega
  have hl : (n / e.yL n + 1) * (n / e.yL n + 1) < 2 ^ 127 := by
    calc (n / e.yL n + 1) * (n / e.yL n + 1) ≤ 2 ^ 62 * 2 ^ 62 := Nat.mul_le_mul (by omega) (by omega)
      _ < 2 ^ 127 := by norm_num
  refine ⟨.of_ok (C05_pi_lmo1 e n hv.schedP2 (by omega)), ?_, ?_, ?_, ?_,
    .of_ok (C10_pi_lmo_parallel1_partial e n threads hv hth hb hy31)⟩
  · unfold run2
    rw [t1, ok_bind]
    refine toI64_clean (rf_clean (rf_piLmo _ _ _ (fun _ _ _ _ _ _ => .bind (rf_s2Lmo2 (w' := 127) (by norm_num) _ _ _ _ _ _) (fun _ => .refl _)) _)
      (piLmo_off (P := fun E => (2 ^ 64 : ℤ) ∣ E) hv h2' hb hy31 le_rfl ht (fun primes lpf mu hT hP => ?_)))
    refine Ok.bind (s2Lmo2_ok (S := AccSpec.w64) h1 hyx hb hy31 hz62 hl (by omega) (by omega) (w64_hyp _ _ _) hT hP)
      (fun r hr => Ok.pure ?_)
    exact rep_w64 hr
  · unfold run3
    rw [t1, ok_bind]
    refine toI64_clean (rf_clean (rf_piLmo _ _ _ (fun _ _ _ _ _ _ => .bind (rf_s2LmoC (w' := 127) (by norm_num) _ _ _ _ _ _ _) (fun _ => .refl _)) _)
      (piLmo_off (P := fun E => (2 ^ 64 : ℤ) ∣ E) hv h2' hb hy31 le_rfl ht (fun primes lpf mu hT hP => ?_)))
    refine Ok.bind (s2LmoC_ok (S := AccSpec.w64) h1 hyx hb hy31 hz62 hl (by omega) (by omega) (w64_hyp _ _ _) hT hP)
      (fun r hr => Ok.pure ?_)
    exact rep_w64 hr
  · unfold run4
    rw [t1, ok_bind]
    refine toI64_clean (Clean.of_ok (piLmo_off (P := fun E => (2 ^ 64 : ℤ) ∣ E) hv h2' hb hy31 le_rfl ht
      (fun primes lpf mu hT hP => ?_))).weaken
    refine Ok.bind (s2LmoC_ok (S := AccSpec.w128) h1 hyx hb hy31 hz62 hl (by omega) (by omega) (w128_hyp _ _ _) hT hP)
      (fun r hr => Ok.pure ?_)
    exact rep_w128 hr
  · unfold run5
    rw [t1, ok_bind]
    refine toI64_clean (rf_clean (rf_piLmo _ _ _ (fun _ _ _ _ _ _ => .bind (rf_s2Lmo5 (w' := 127) (by norm_num) _ _ _ _ _ _) (fun _ => .refl _)) _)
      (piLmo_off (P := fun E => (2 ^ 64 : ℤ) ∣ E) hv h2' hb hy31 le_rfl ht (fun primes lpf mu hT hP => ?_)))
    refine Ok.bind (s2Lmo5_ok (S := AccSpec.w64) h1 hy31 hyx hb hz62 hl (by omega) (by omega) (by omega) (w64_hyp _ _ _) hT hP)
      (fun r hr => Ok.pure ?_)
    exact rep_w64 hr

/-! ## C51 -/

/-- No run of `pi` leaves its tables: not for any schedule, timing or tuning factor, nor for an `x` whose result is wrong.  Missing: `x` between `2^103` and the limit, which is greater only for some
tuning factors given by the user (`C51_pi_default`), and, for `x` out of reach (`x ≥ 2^88`, with the default tuning factor
`x > 5 * 10^29`), more than `2^26` threads. -/
theorem C51_pi_partial (e : Pi.Env) (x : ℤ) (threads : ℤ) (hv : e.Valid) (hth : 1 ≤ threads) (hx : x < 2 ^ 127)
    (hl : x < 2 ^ 103 ∨ e.limit x.toNat < x) (hr : threads ≤ 2 ^ 26 ∨ e.Reach x.toNat) :
    InBounds (runPi e x threads) := (runPi_clean e x threads hv hth hx hl hr).weaken.inBounds

/-- With the default tuning factor no 128-bit integer is excluded. -/
theorem runPi_default (e : Pi.Env) (x : ℤ) (threads : ℤ) (hv : e.Valid) (hl : e.lib.Accurate)
    (hd : e.alpha.lt (.fin 1) = true) (hth : 1 ≤ threads) (hthr : threads ≤ 2 ^ 26) (hx : x < 2 ^ 127) :
    Clean (runPi e x threads) := by
  refine runPi_clean e x threads hv hth hx ?_ (Or.inl hthr)
  rcases lt_or_ge x (2 ^ 103) with h | h
  · exact Or.inl h
  · obtain ⟨n, rfl⟩ := Int.eq_ofNat_of_zero_le (by omega : 0 ≤ x)
    refine Or.inr ?_
    rw [Int.toNat_natCast]
    exact_mod_cast Pi.limit_lt_default hv.fp hl hd (x := n) (by norm_num at h ⊢; omega) (by exact_mod_cast hx)

theorem C51_pi_default (e : Pi.Env) (x : ℤ) (threads : ℤ) (hv : e.Valid) (hl : e.lib.Accurate)
    (hd : e.alpha.lt (.fin 1) = true) (hth : 1 ≤ threads) (hthr : threads ≤ 2 ^ 26) (hx : x < 2 ^ 127) :
    InBounds (runPi e x threads) := (runPi_default e x threads hv hl hd hth hthr hx).weaken.inBounds

/-- No run of an LMO algorithm with a 64-bit `x` leaves its tables, not even if the result does not fit.  Missing: a `y` beyond
31 bits, which occurs only for `x ≥ 2^62` and great tuning factors given by the user (`C51_lmo_below`, `C51_lmo_default`, `C10_limit`). -/
theorem C51_lmo_partial (e : Pi.Env) (x : ℤ) (threads : ℤ) (hv : Lmo.EnvValid e) (hth : 1 ≤ threads) (hx : x < 2 ^ 63)
    (hy : 2 ≤ x → e.yL x.toNat < 2 ^ 31) :
    InBounds (run1 e x) ∧ InBounds (run2 e x) ∧ InBounds (run3 e x) ∧ InBounds (run4 e x) ∧ InBounds (run5 e x) ∧
      InBounds (runParallel1 e x threads) := by
  obtain ⟨h1, h2, h3, h4, h5, h6⟩ := lmo_clean e x threads hv hth hx hy
  exact ⟨h1.weaken.inBounds, h2.inBounds, h3.inBounds, h4.inBounds, h5.inBounds, h6.weaken.inBounds⟩

/-- The tuning factor is not restricted if `x < 2^62`. -/
theorem yL_below {e : Pi.Env} {x : ℤ} (hv : Lmo.EnvValid e) (hx : x < 2 ^ 62) (h2 : 2 ≤ x) : e.yL x.toNat < 2 ^ 31 := by
  obtain ⟨n, rfl⟩ := Int.eq_ofNat_of_zero_le (by omega : 0 ≤ x)
  rw [Int.toNat_natCast]
  obtain ⟨-, hyx, -⟩ := Pi.yL_facts hv.fp (by omega : 1 ≤ n) (by omega)
  exact Lmo.y_lt_31 hyx (by omega)

theorem yL_default {e : Pi.Env} {x : ℤ} (hv : Lmo.EnvValid e) (hd : e.alpha.lt (.fin 1) = true) (hx : x < 2 ^ 63) (h2 : 2 ≤ x) :
    e.yL x.toNat < 2 ^ 31 := Pi.yL_default hv.fp hd (by omega) (by omega)

theorem C51_lmo_below (e : Pi.Env) (x : ℤ) (threads : ℤ) (hv : Lmo.EnvValid e) (hth : 1 ≤ threads) (hx : x < 2 ^ 62) :
    InBounds (run1 e x) ∧ InBounds (run2 e x) ∧ InBounds (run3 e x) ∧ InBounds (run4 e x) ∧ InBounds (run5 e x) ∧
      InBounds (runParallel1 e x threads) := C51_lmo_partial e x threads hv hth (by omega) (yL_below hv hx)

theorem C51_lmo_default (e : Pi.Env) (x : ℤ) (threads : ℤ) (hv : Lmo.EnvValid e) (hd : e.alpha.lt (.fin 1) = true)
    (hth : 1 ≤ threads) (hx : x < 2 ^ 63) :
    InBounds (run1 e x) ∧ InBounds (run2 e x) ∧ InBounds (run3 e x) ∧ InBounds (run4 e x) ∧ InBounds (run5 e x) ∧
      InBounds (runParallel1 e x threads) := C51_lmo_partial e x threads hv hth hx (yL_default hv hd hx)

/-! ## C52 -/

/-- Every run of `pi` ends.  Missing: as for `C51_pi_partial`. -/
theorem C52_pi_partial (e : Pi.Env) (x : ℤ) (threads : ℤ) (hv : e.Valid) (hth : 1 ≤ threads) (hx : x < 2 ^ 127)
    (hl : x < 2 ^ 103 ∨ e.limit x.toNat < x) (hr : threads ≤ 2 ^ 26 ∨ e.Reach x.toNat) :
    Terminates (runPi e x threads) := (runPi_clean e x threads hv hth hx hl hr).weaken.terminates

theorem C52_pi_default (e : Pi.Env) (x : ℤ) (threads : ℤ) (hv : e.Valid) (hl : e.lib.Accurate)
    (hd : e.alpha.lt (.fin 1) = true) (hth : 1 ≤ threads) (hthr : threads ≤ 2 ^ 26) (hx : x < 2 ^ 127) :
    Terminates (runPi e x threads) := (runPi_default e x threads hv hl hd hth hthr hx).weaken.terminates

/-- Every run of an LMO algorithm with a 64-bit `x` ends.  Missing: as for `C51_lmo_partial`. -/
theorem C52_lmo_partial (e : Pi.Env) (x : ℤ) (threads : ℤ) (hv : Lmo.EnvValid e) (hth : 1 ≤ threads) (hx : x < 2 ^ 63)
    (hy : 2 ≤ x → e.yL x.toNat < 2 ^ 31) :
    Terminates (run1 e x) ∧ Terminates (run2 e x) ∧ Terminates (run3 e x) ∧ Terminates (run4 e x) ∧
      Terminates (run5 e x) ∧ Terminates (runParallel1 e x threads) := by
  obtain ⟨h1, h2, h3, h4, h5, h6⟩ := lmo_clean e x threads hv hth hx hy
  exact ⟨h1.weaken.terminates, h2.terminates, h3.terminates, h4.terminates, h5.terminates, h6.weaken.terminates⟩

theorem C52_lmo_below (e : Pi.Env) (x : ℤ) (threads : ℤ) (hv : Lmo.EnvValid e) (hth : 1 ≤ threads) (hx : x < 2 ^ 62) :
    Terminates (run1 e x) ∧ Terminates (run2 e x) ∧ Terminates (run3 e x) ∧ Terminates (run4 e x) ∧
      Terminates (run5 e x) ∧ Terminates (runParallel1 e x threads) := C52_lmo_partial e x threads hv hth (by omega) (yL_below hv hx)

theorem C52_lmo_default (e : Pi.Env) (x : ℤ) (threads : ℤ) (hv : Lmo.EnvValid e) (hd : e.alpha.lt (.fin 1) = true)
    (hth : 1 ≤ threads) (hx : x < 2 ^ 63) :
    Terminates (run1 e x) ∧ Terminates (run2 e x) ∧ Terminates (run3 e x) ∧ Terminates (run4 e x) ∧
      Terminates (run5 e x) ∧ Terminates (runParallel1 e x threads) := C52_lmo_partial e x threads hv hth hx (yL_default hv hd hx)

/-- Printing an `int256_t` always ends. -/
theorem C52_print (n : I256) : ∃ digits, I256.print n = .ok digits := by
  by_cases h : n.val = -2 ^ 255
  · have : n = I256.minValue := I256.val_inj (by rw [h, I256.C38_print_counterexample.1])
    exact ⟨_, by rw [this]; exact I256.C38_print_counterexample.2⟩
  · exact ⟨_, I256.C38_print256_partial n h⟩

/-! ## The program -/

theorem Pi.Env.Valid.lmo {e : Pi.Env} (h : e.Valid) : Lmo.EnvValid e :=
  ⟨h.schedP2, h.schedS1, h.schedHard, h.fp⟩

namespace Main
open Spec

theorem part_clean {E : Pi.Env} {x : ℤ} {o : Opt} {threads : ℤ} {tiny : Vec PhiTiny.Tab} {name : String}
    (ht : PhiTiny.Valid tiny 6) (hv : E.Valid) (hth : 1 ≤ threads) (hx : x < 2 ^ 127)
    (hb : x < 2 ^ 103 ∨ E.limit x.toNat < x) (hz : o = .S2Hard → threads ≤ 2 ^ 26 ∨ E.Reach x.toNat)
    (hl : label o = some name) : Clean (run E tiny o x threads) := by
  rcases lt_or_ge x 1 with h1 | h1
  · refine Or.inl ⟨I256.ofInt 0, ?_⟩
    cases o <;> (try (simp [label] at hl; done)) <;>
      unfold run <;> dsimp only [mainP2, mainS1, mainS2Easy, mainS2Hard, mainS2Trivial] <;> unfold part <;> rw [if_pos h1] <;> rfl
  obtain ⟨n, rfl⟩ := Int.eq_ofNat_of_zero_le (by omega : 0 ≤ x)
  have hx' : n < 2 ^ 127 := by exact_mod_cast hx
  have hn1 : 1 ≤ n := by exact_mod_cast h1
  rcases Nat.lt_or_ge (E.limit n) n with hlim | hlim
  · have key : ∀ (name : String) (f : ℕ → ℕ → ℕ → ℕ → M I256), Clean (part name E n f) := by
      intro name f
      unfold part
      rw [if_neg (by omega)]
      dsimp only
      rw [Int.toNat_natCast, Pi.getAlpha_eq, ok_bind, (Pi.limit_ok hv.fp hn1 (by omega)).1, ok_bind, if_pos (by omega)]
      exact Or.inr ⟨_, rfl⟩
    cases o <;> (try (simp [label] at hl; done)) <;> unfold run <;>
      dsimp only [mainP2, mainS1, mainS2Easy, mainS2Hard, mainS2Trivial] <;> apply key
  have hlt : n < 2 ^ 103 := by simp at hb; omega
  by_cases hh : o = .S2Hard ∧ threads ≤ 2 ^ 26
  · obtain ⟨rfl, hthr⟩ := hh
    obtain ⟨y1, y2, y3⟩ := Pi.y_facts hv.fp hn1 (by omega)
    have hzl := Pi.z_le_limit hv.fp hn1 (by omega) hlim
    exact .of_ok (part_ok (name := "S2_hard") (f := fun x y z c => S2Hard.s2Hard E.hard x y z c threads) hv.fp hn1 hlt hlim
      (C15_low64 E.hard n _ _ threads hv.schedHard hv.merge y1 y2 y3 (c_cases _).1 (by omega) hlt (by omega) hthr))
  have hz' : o = .S2Hard → n / E.y n + 129 < 2 ^ 59 := fun h => ((hz h).resolve_left (fun h' => hh ⟨h, h'⟩)).z hv.fp hn1
  by_cases ho : o = .S1
  · subst ho
    rcases Nat.lt_or_ge n (2 ^ 63) with h63 | h63
    · exact .of_ok (part_run ht hv hth hn1 hlt hlim hz' (fun _ => Or.inl (by omega)) hl)
    · obtain ⟨D, hD⟩ := s1_det (x := n) (y := E.y n) (c := min 6 (Nat.primeCounting (E.y n))) (Or.inl h63)
        (prm_small (min_le_left _ _)) (Pi.y_lt_63 (Pi.y_facts hv.fp hn1 (by omega)).2.1 (by omega))
      exact .of_ok (part_ok (name := "S1") (f := fun x y _ c => PS.s1 E.schedS1 x y c) hv.fp hn1 hlt hlim
        (hD _ hv.schedS1))
  · exact .of_ok (part_run ht hv hth hn1 hlt hlim hz' (fun h => absurd h ho) hl)

/-- The number is `< 2^103` or greater than the limit; for `pi` and `S2_hard` there are at most `2^26` threads or the number is within reach
(`< 2^88`, or the default tuning factor and `≤ 5 * 10^29`); and for the LMO algorithms the `y` of the number, converted to `int64_t`, fits in 31 bits. -/
structure Small (ompMax : ℤ) (E : Pi.Env) (o : Opt) (x : ℤ) : Prop where
  lt : ¬ IsLmo o → x < 2 ^ 103 ∨ E.limit x.toNat < x
  reach : IsPi o ∨ o = .S2Hard → ompMax ≤ 2 ^ 26 ∨ E.Reach x.toNat
  lmo : IsLmo o → 2 ≤ x.bmod (2 ^ 64) → E.yL (x.bmod (2 ^ 64)).toNat < 2 ^ 31

theorem run_clean {E : Pi.Env} {x : ℤ} {o : Opt} {threads : ℤ} {tiny : Vec PhiTiny.Tab}
    (hb1 : PhiTiny.build = .ok tiny) (ht : PhiTiny.Valid tiny 6) (hv : E.Valid) (hth : 1 ≤ threads) {ompMax : ℤ}
    (hthr : threads ≤ ompMax) (hx : x < 2 ^ 127) (hb : Small ompMax E o x) : Clean' (run E tiny o x threads) := by
  have hpi : IsPi o → Clean (Pi.pi E tiny x threads) := by
    intro ho
    have := runPi_clean E x threads hv hth hx (hb.lt (fun h => by
      unfold IsPi at ho; unfold IsLmo at h
      simp only [List.mem_cons, List.not_mem_nil, or_false] at ho h
      rcases ho with rfl | rfl | rfl <;> simp at h)) ((hb.reach (Or.inl ho)).imp_left (by omega))
    change Clean (do let tiny ← PhiTiny.build; Pi.pi E tiny x threads) at this
    rwa [hb1, ok_bind] at this
  have hlmo : IsLmo o → ∀ f : ℤ → M I256, (∀ x : ℤ, x < 2 ^ 63 → (2 ≤ x → E.yL x.toNat < 2 ^ 31) → Clean' (f x)) → Clean' (do let x ← int64Cast x; f x) := by
    intro hi f hf
    unfold int64Cast
    split
    · exact Or.inl (Or.inr ⟨_, rfl⟩)
    · rw [ok_bind]
      exact hf _ (by have := Int.bmod_lt (x := x) (m := 2 ^ 64) (by norm_num); omega) (hb.lmo hi)
  have hI : ∀ {m : M ℤ}, Clean' m → Clean' (ofI64 m) := fun h => h.bind (fun _ _ => Or.inl (Or.inl ⟨_, rfl⟩))
  have hL := fun x hx hy => lmo_clean E x threads hv.lmo hth hx hy
  unfold run1 run2 run3 run4 run5 runParallel1 at hL
  simp only [hb1, ok_bind] at hL
  cases o <;> (try exact Or.inl (Or.inl ⟨_, rfl⟩))
  case delegliseRivat => exact (hpi (by unfold IsPi; simp)).weaken
  case delegliseRivatParallel1 => exact (hpi (by unfold IsPi; simp)).weaken
  case pi => exact (hpi (by unfold IsPi; simp)).weaken
  case lmo => exact hlmo (by unfold IsLmo; simp) _ (fun x hx hy => (hL x hx hy).2.2.2.2.2.weaken)
  case lmoParallel1 => exact hlmo (by unfold IsLmo; simp) _ (fun x hx hy => (hL x hx hy).2.2.2.2.2.weaken)
  case lmo1 => exact hlmo (by unfold IsLmo; simp) _ (fun x hx hy => (hL x hx hy).1.weaken)
  case lmo2 => exact hlmo (by unfold IsLmo; simp) _ (fun x hx hy => hI (hL x hx hy).2.1)
  case lmo3 => exact hlmo (by unfold IsLmo; simp) _ (fun x hx hy => hI (hL x hx hy).2.2.1)
  case lmo4 => exact hlmo (by unfold IsLmo; simp) _ (fun x hx hy => hI (hL x hx hy).2.2.2.1)
  case lmo5 => exact hlmo (by unfold IsLmo; simp) _ (fun x hx hy => hI (hL x hx hy).2.2.2.2.1)
  case P2 => exact (part_clean ht hv hth hx (hb.lt (by unfold IsLmo; simp)) (o := .P2) (fun h => by cases h) rfl).weaken
  case S1 => exact (part_clean ht hv hth hx (hb.lt (by unfold IsLmo; simp)) (o := .S1) (fun h => by cases h) rfl).weaken
  case S2Easy => exact (part_clean ht hv hth hx (hb.lt (by unfold IsLmo; simp)) (o := .S2Easy) (fun h => by cases h) rfl).weaken
  case S2Hard => exact (part_clean ht hv hth hx (hb.lt (by unfold IsLmo; simp)) (o := .S2Hard) (fun _ => (hb.reach (Or.inr rfl)).imp_left (by omega)) rfl).weaken
  case S2Trivial => exact (part_clean ht hv hth hx (hb.lt (by unfold IsLmo; simp)) (o := .S2Trivial) (fun h => by cases h) rfl).weaken

/-- Every execution of the program, for every command line with the restrictions of `Small`: it prints something and ends,
or a signed integer overflows (in the calculator, or in the conversion of the result of `--lmo2` to `--lmo5`). -/
theorem main_clean (e : Env) (args : List (List Char)) (homp : 1 ≤ e.ompMax)
    (hv : ∀ pco set, Accepted e args pco set → (algEnv e set pco.option).Valid) (hb : ∀ pco set, Accepted e args pco set → Small e.ompMax (algEnv e set pco.option) pco.option pco.x) :
    Clean' (main e args) := by
  obtain ⟨tiny, h1, ht⟩ := PhiTiny.build_ok
  rcases C41_total e args with ⟨pco, set, h⟩ | ⟨ex, h⟩ | h
  · have hr := run_clean (o := pco.option) h1 ht (hv pco set h) (threads_pos h homp) (threads_le h homp) (x_range h).2 (hb pco set h)
    unfold main
    rw [h1, ok_bind, (C41_starts e args pco set).2 h, ok_bind]
    dsimp only
    rcases hr with (⟨r, hr⟩ | ⟨msg, hr⟩) | hr | hr <;> rw [hr] <;> dsimp only
    · obtain ⟨d, hd⟩ := C52_print r
      rw [hd, ok_bind]
      refine Or.inl (Or.inl ?_)
      split
      · split <;> exact ⟨_, rfl⟩
      · exact ⟨_, rfl⟩
    · exact Or.inl (Or.inl ⟨_, rfl⟩)
    · exact Or.inr (Or.inl rfl)
    · exact Or.inr (Or.inr rfl)
  · exact Or.inl (Or.inl ⟨_, C41_exit e args ex h⟩)
  · unfold main
    rw [h1, ok_bind]
    rcases h with h | h <;> rw [h]
    · exact Or.inr (Or.inl rfl)
    · exact Or.inr (Or.inr rfl)

/-- The program never reads or writes outside of a table, whatever its arguments.  Missing: see `Small`; without `--alpha` nothing is missing
(`C51_main_default`). -/
theorem C51_main_partial (e : Env) (args : List (List Char)) (homp : 1 ≤ e.ompMax)
    (hv : ∀ pco set, Accepted e args pco set → (algEnv e set pco.option).Valid) (hb : ∀ pco set, Accepted e args pco set → Small e.ompMax (algEnv e set pco.option) pco.option pco.x) :
    InBounds (main e args) := (main_clean e args homp hv hb).inBounds

/-- The program always ends.  Missing: see `Small`; without `--alpha` nothing is missing (`C52_main_default`). -/
theorem C52_main_partial (e : Env) (args : List (List Char)) (homp : 1 ≤ e.ompMax)
    (hv : ∀ pco set, Accepted e args pco set → (algEnv e set pco.option).Valid) (hb : ∀ pco set, Accepted e args pco set → Small e.ompMax (algEnv e set pco.option) pco.option pco.x) :
    Terminates (main e args) := (main_clean e args homp hv hb).terminates

/-- Without `--alpha` a number is small or rejected. -/
theorem small_default {e : Env} {args : List (List Char)} (homp' : e.ompMax ≤ 2 ^ 26)
    (ha : ∀ a ∈ args, ∀ v, ¬ Names a .alpha v) (hl : ∀ o, (e.alg o).lib.Accurate) {pco : Options} {set : Settings}
    (h : Accepted e args pco set) (hv : (algEnv e set pco.option).Valid) :
    Small e.ompMax (algEnv e set pco.option) pco.option pco.x := by
  have hd : set.alpha = .fin (-1) := by
    obtain ⟨r, h3, h4⟩ := h.alpha
    cases r with
    | none => exact h4
    | some q =>
      obtain ⟨p, a, q, h5, ⟨v, h6, -⟩, -⟩ := h3
      exact absurd h6 (ha a (by rw [h5]; simp) v)
  have hd' : (algEnv e set pco.option).alpha.lt (.fin 1) = true := by show set.alpha.lt _ = true; rw [hd]; decide +kernel
  refine ⟨fun _ => ?_, fun _ => Or.inl homp', fun _ => yL_default hv.lmo hd' (by
    have := Int.bmod_lt (x := pco.x) (m := 2 ^ 64) (by norm_num); omega)⟩
  have hx := (x_range h).2
  rcases lt_or_ge pco.x (2 ^ 103) with h1 | h1
  · exact Or.inl h1
  · refine Or.inr ?_
    obtain ⟨n, hn⟩ := Int.eq_ofNat_of_zero_le (by omega : 0 ≤ pco.x)
    rw [hn, Int.toNat_natCast]
    exact_mod_cast Pi.limit_lt_default hv.fp (hl pco.option) hd' (x := n)
      (by rw [hn] at h1; norm_num at h1 ⊢; omega) (by rw [hn] at hx; exact_mod_cast hx)

/-- A command line without `--alpha`: no access outside of a table, whatever the number is and whatever is computed, on up to
`2^26` threads. -/
theorem C51_main_default (e : Env) (args : List (List Char)) (homp : 1 ≤ e.ompMax) (homp' : e.ompMax ≤ 2 ^ 26)
    (ha : ∀ a ∈ args, ∀ v, ¬ Names a .alpha v) (hl : ∀ o, (e.alg o).lib.Accurate)
    (hv : ∀ pco set, Accepted e args pco set → (algEnv e set pco.option).Valid) :
    InBounds (main e args) :=
  C51_main_partial e args homp hv (fun pco set h => small_default homp' ha hl h (hv pco set h))

/-- A command line without `--alpha`: the program ends. -/
theorem C52_main_default (e : Env) (args : List (List Char)) (homp : 1 ≤ e.ompMax) (homp' : e.ompMax ≤ 2 ^ 26)
    (ha : ∀ a ∈ args, ∀ v, ¬ Names a .alpha v) (hl : ∀ o, (e.alg o).lib.Accurate)
    (hv : ∀ pco set, Accepted e args pco set → (algEnv e set pco.option).Valid) :
    Terminates (main e args) :=
  C52_main_partial e args homp hv (fun pco set h => small_default homp' ha hl h (hv pco set h))

/-- Non-vacuity. -/
example : InBounds (main exampleMainEnv ["--S1".toList, "100".toList]) ∧
    Terminates (main exampleMainEnv ["--S1".toList, "100".toList]) := by
  have h : Accepted exampleMainEnv ["--S1".toList, "100".toList] ⟨100, .S1, false⟩ {} := (C41_starts _ _ _ _).1 rfl
  have hb : ∀ pco set, Accepted exampleMainEnv ["--S1".toList, "100".toList] pco set →
      Small exampleMainEnv.ompMax (algEnv exampleMainEnv set pco.option) pco.option pco.x := by
    intro pco set h'
    have h1 := (C41_starts _ _ _ _).2 h
    rw [(C41_starts _ _ _ _).2 h'] at h1
    injection h1 with h1
    injection h1 with h1
    injection h1 with h1 h2
    rw [h1]
    exact ⟨fun _ => Or.inl (by norm_num), fun _ => Or.inr (Or.inl (by norm_num)), fun h => by simp [IsLmo] at h⟩
  exact ⟨C51_main_partial _ _ (by decide) (fun _ _ h => exampleMainEnv_valid h _) hb, C52_main_partial _ _ (by decide) (fun _ _ h => exampleMainEnv_valid h _) hb⟩

end Main

example : InBounds (runPi (exampleEnv 3 true) 100 4) ∧ Terminates (runPi (exampleEnv 3 true) 100 4) :=
  ⟨C51_pi_partial _ 100 4 (exampleEnv_valid 3 true) (by norm_num) (by norm_num) (Or.inl (by norm_num)) (Or.inl (by norm_num)),
    C52_pi_partial _ 100 4 (exampleEnv_valid 3 true) (by norm_num) (by norm_num) (Or.inl (by norm_num)) (Or.inl (by norm_num))⟩

example : InBounds (run5 (exampleEnv 3 true) (10 ^ 12 : ℕ)) :=
  (C51_lmo_below (exampleEnv 3 true) (10 ^ 12 : ℕ) 1 (exampleEnv_lmo 3 true) (by norm_num) (by norm_num)).2.2.2.2.1

end PS
