import Verif.Model.Output
import Verif.Proof.Dbl
import Verif.Proof.Print
import Verif.Proof.Roots
import Verif.Proof.Tables
import Verif.Proof.Alpha

/-!
# Output: a computation that writes computes the same value as the one that does not
-/

namespace PS.Print

/-- `w` computes what `m` computes and writes a text that satisfies `P`. -/
def Emits {α : Type} (w : W α) (m : M α) (P : Text → α → Prop) : Prop :=
  match m with
  | .ok a => ∃ u, P u a ∧ ∀ t, w.run t = .ok (a, t ++ u)
  | .error e => ∀ t, w.run t = .error e

variable {α β : Type}

theorem Emits.mono {w : W α} {m : M α} {P Q : Text → α → Prop} (h : Emits w m P) (hPQ : ∀ u a, m = .ok a → P u a → Q u a) :
    Emits w m Q := by
  unfold Emits at h ⊢
  cases m with
  | error e => exact h
  | ok a =>
    obtain ⟨u, h1, h2⟩ := h
    exact ⟨u, hPQ u a rfl h1, h2⟩

theorem Emits.pure (a : α) : Emits (Pure.pure a) (Pure.pure a) (fun u b => u = [] ∧ b = a) := by
  refine ⟨[], ⟨rfl, rfl⟩, fun t => ?_⟩
  rw [List.append_nil]
  rfl

theorem Emits.lift (m : M α) : Emits (liftM m : W α) m (fun u _ => u = []) := by
  cases m with
  | error e => exact fun t => rfl
  | ok a => exact ⟨[], rfl, fun t => by rw [List.append_nil]; rfl⟩

theorem Emits.emit (t : Text) : Emits (Print.emit t) (.ok ()) (fun u _ => u = t) :=
  ⟨t, rfl, fun _ => rfl⟩

theorem Emits.bind {w : W α} {m : M α} {f : α → W β} {g : α → M β} {P : Text → α → Prop} {Q : α → Text → β → Prop}
    (h : Emits w m P) (hf : ∀ a, m = .ok a → Emits (f a) (g a) (Q a)) :
    Emits (w >>= f) (m >>= g) (fun u b => ∃ a v v', m = .ok a ∧ g a = .ok b ∧ P v a ∧ Q a v' b ∧ u = v ++ v') := by
  cases m with
  | error e =>
    intro t
    show (w >>= f).run t = .error e
    rw [StateT.run_bind, h t]
    rfl
  | ok a =>
    obtain ⟨u, h1, h2⟩ := h
    have h3 := hf a rfl
    show Emits (w >>= f) (g a) _
    unfold Emits at h3 ⊢
    cases hg : g a with
    | error e =>
      rw [hg] at h3
      intro t
      rw [StateT.run_bind, h2 t]
      exact h3 _
    | ok b =>
      rw [hg] at h3
      obtain ⟨u', h4, h5⟩ := h3
      refine ⟨u ++ u', ⟨a, u, u', rfl, hg, h1, h4, rfl⟩, fun t => ?_⟩
      rw [StateT.run_bind, h2 t, ← List.append_assoc]
      exact h5 _

/-- A value of the computation that does not write. -/
theorem Emits.liftBind {m : M α} {f : α → W β} {g : α → M β} {Q : Text → β → Prop}
    (hf : ∀ a, m = .ok a → Emits (f a) (g a) Q) : Emits ((liftM m : W α) >>= f) (m >>= g) Q := by
  refine ((Emits.lift m).bind hf).mono (fun u b _ h => ?_)
  obtain ⟨a, v, v', -, -, h1, h2, h3⟩ := h
  rw [h3, h1]
  exact h2

/-- Output that has no counterpart. -/
theorem Emits.seq {w : W Unit} {w' : W β} {m : M β} {P : Text → Prop} {Q : Text → β → Prop}
    (h : Emits w (.ok ()) (fun u _ => P u)) (h' : Emits w' m Q) :
    Emits (w >>= fun _ => w') m (fun u b => ∃ v v', P v ∧ Q v' b ∧ u = v ++ v') := by
  have := h.bind (f := fun _ => w') (g := fun _ => m) (fun _ _ => h')
  refine this.mono (fun u b _ hb => ?_)
  obtain ⟨_, v, v', -, -, h1, h2, h3⟩ := hb
  exact ⟨v, v', h1, h2, h3⟩

/-- A function that ends by returning its result after some output. -/
theorem Emits.ret {w : W Unit} {a : α} {P : Text → Prop} (h : Emits w (.ok ()) (fun u _ => P u)) :
    Emits (w >>= fun _ => Pure.pure a) (.ok a) (fun u b => P u ∧ b = a) := by
  refine (h.seq (Emits.pure a)).mono (fun u b _ hb => ?_)
  obtain ⟨v, v', h1, ⟨h2, h3⟩, h4⟩ := hb
  rw [h4, h2, List.append_nil]
  exact ⟨h1, h3⟩

/-! ### src/print.cpp -/

/-- Nothing is written unless `--status` is given. -/
def Silent (f : Flags) (u : Text) : Prop := f.print = false → f.vars = false → u = []

theorem Silent.append {f : Flags} {u v : Text} (h : Silent f u) (h' : Silent f v) : Silent f (u ++ v) := by
  intro h1 h2
  rw [h h1 h2, h' h1 h2]
  rfl

theorem Silent.nil (f : Flags) : Silent f [] := fun _ _ => rfl

theorem say_ok (f : Flags) (s : String) : Emits (say f s) (.ok ()) (fun u _ => Silent f u) := by
  unfold say
  split
  · rename_i h
    exact (Emits.emit _).mono (fun u _ _ _ h1 => absurd h1 (by rw [h]; simp))
  · exact (Emits.pure ()).mono (fun u _ _ hu _ _ => hu.1)

theorem sayTitle_ok (f : Flags) (a b : String) : Emits (sayTitle f a b) (.ok ()) (fun u _ => Silent f u) := by
  unfold sayTitle
  refine ((say_ok f "").seq ((say_ok f a).seq (say_ok f b))).mono (fun u _ _ h => ?_)
  obtain ⟨v, v', h1, ⟨w, w', h2, h3, h4⟩, h5⟩ := h
  rw [h5, h4]
  exact h1.append (h2.append h3)

theorem printS_total {n : ℕ} (h : n < 2 ^ 127) : I128.printS (n : ℤ) = .ok (decimal n) :=
  I128.printS_ok n (by omega) (by exact_mod_cast h)

theorem sayAll_ok (f : Flags) (x y z c : ℕ) (alpha : Dbl) (threads : ℤ) (hx : f.print = true → x < 2 ^ 127) :
    Emits (sayAll f x y z c alpha threads) (.ok ()) (fun u _ => Silent f u) := by
  unfold sayAll
  split
  · rename_i h
    rw [printS_total (hx h)]
    refine Emits.liftBind (m := .ok _) (g := fun _ => .ok ()) (fun a ha => ?_)
    exact (Emits.emit _).mono (fun u _ _ _ h1 => absurd h1 (by rw [h]; simp))
  · exact (Emits.pure ()).mono (fun u _ _ hu _ _ => hu.1)

theorem alphaOfY_ok {x : ℕ} (y : ℕ) (hx : 1 ≤ x) : ∃ d, alphaOfY x y = .ok d :=
  Dbl.div_ok one_pos _ (Dbl.ofInt_atLeast (le_iroot (by norm_num) (by simpa using hx)))

theorem sayVariables_ok (f : Flags) (x y : ℕ) (c : Option ℕ) (threads : ℤ)
    (hx : f.vars = true → 1 ≤ x ∧ x < 2 ^ 127 ∧ y ≠ 0) :
    Emits (sayVariables f x y c threads) (.ok ()) (fun u _ => Silent f u) := by
  unfold sayVariables
  split
  · rename_i h
    obtain ⟨h1, h2, h3⟩ := hx h
    obtain ⟨d, hd⟩ := alphaOfY_ok y h1
    have hz : cdiv x y = .ok (x / y) := by unfold cdiv; rw [if_neg h3]
    rw [hz, hd, printS_total h2]
    have hz2 := Nat.div_le_self x y
    refine Emits.liftBind (m := .ok _) (g := fun _ => .ok ()) (fun a ha => ?_)
    obtain rfl := Except.ok.inj ha
    refine Emits.liftBind (m := .ok _) (g := fun _ => .ok ()) (fun a ha => ?_)
    rw [printS_total (n := x / y) (by omega)]
    refine Emits.liftBind (m := .ok _) (g := fun _ => .ok ()) (fun a ha => ?_)
    refine Emits.liftBind (m := .ok _) (g := fun _ => .ok ()) (fun a ha => ?_)
    exact (Emits.emit _).mono (fun u _ _ _ _ h1 => absurd h1 (by rw [h]; simp))
  · exact (Emits.pure ()).mono (fun u _ _ hu _ _ => hu.1)

/-- The text of `print(res_str, res, time)`. -/
def resultText (name : String) (d : Text) (seconds : Dbl) : Text :=
  "\r".toList ++ List.replicate 50 ' ' ++ "\r".toList ++ "Status: 100%".toList ++ nl ++
      name.toList ++ " = ".toList ++ d ++ nl ++ secondsText seconds

theorem print_total (r : I256) : ∃ d, I256.print r = .ok d := I256.print_total r

theorem sayResult_ok (f : Flags) (name : String) (r : I256) (s : Dbl) :
    Emits (sayResult f name r s) (.ok ()) (fun u _ => Silent f u ∧
      (f.print = true → ∃ d, I256.print r = .ok d ∧ u = resultText name d s)) := by
  unfold sayResult
  split
  · rename_i h
    obtain ⟨d, hd⟩ := print_total r
    rw [hd]
    refine Emits.liftBind (m := .ok _) (g := fun _ => .ok ()) (fun a ha => ?_)
    obtain rfl := Except.ok.inj ha
    exact (Emits.emit _).mono (fun u _ _ hu => ⟨fun h1 => absurd h1 (by rw [h]; simp), fun _ => ⟨d, rfl, hu⟩⟩)
  · rename_i h
    exact (Emits.pure ()).mono (fun u _ _ hu => ⟨fun _ _ => hu.1, fun h1 => absurd h1 h⟩)

/-! ### Percentages -/

theorem inBetween_percent {d : Dbl} (h : d ≠ .nan) :
    ∃ q, Dbl.inBetween (.fin 0) d (.fin 100) = .fin q ∧ 0 ≤ q ∧ q ≤ 100 := by
  unfold Dbl.inBetween
  cases d with
  | nan => exact absurd rfl h
  | inf neg =>
    cases neg
    · exact ⟨100, by simp [Dbl.lt], by norm_num, le_refl _⟩
    · exact ⟨0, by simp [Dbl.lt], le_refl _, by norm_num⟩
  | fin q =>
    simp only [Dbl.lt, decide_eq_true_eq]
    split_ifs with h1 h2
    · exact ⟨0, rfl, le_refl _, by norm_num⟩
    · exact ⟨100, rfl, by norm_num, le_refl _⟩
    · exact ⟨q, rfl, not_lt.1 h1, not_lt.1 h2⟩

theorem pow200_lt : (2 : ℚ) ^ 200 < 2 ^ 1024 := pow_lt_pow_right₀ (by norm_num) (by norm_num)

theorem round_small {q : ℚ} (h0 : 0 ≤ q) (h : q ≤ 2 ^ 200) :
    Dbl.round q = .fin (binary64 q) ∧ 0 ≤ binary64 q ∧ binary64 q ≤ 2 ^ 200 := by
  have hz : binary64 ((2 : ℚ) ^ 200) = 2 ^ 200 := by
    have := binary64_zpow (k := 200) (by norm_num)
    exact_mod_cast this
  have hu : binary64 q ≤ 2 ^ 200 := by
    rw [← hz]
    exact binary64_mono h
  exact ⟨Dbl.round_of_lt h0 (lt_of_le_of_lt hu pow200_lt), binary64_nonneg h0, hu⟩

theorem round_abs {q : ℚ} (h : |q| ≤ 2 ^ 200) : Dbl.round q = .fin (binary64 q) := by
  obtain ⟨h1, h2⟩ := abs_le.1 h
  have hz : binary64 ((2 : ℚ) ^ 200) = 2 ^ 200 := by
    have := binary64_zpow (k := 200) (by norm_num)
    exact_mod_cast this
  have hu := binary64_mono h2
  have hl := binary64_mono h1
  rw [binary64_neg, hz] at hl
  rw [hz] at hu
  unfold Dbl.round
  rw [if_neg (not_le.2 (lt_of_le_of_lt hu pow200_lt)), if_neg (not_le.2 (lt_of_lt_of_le (neg_lt_neg pow200_lt) hl))]

theorem binary64_natLe {q : ℚ} {n : ℕ} (hn : n ≤ 2 ^ 53) (h : q ≤ n) : binary64 q ≤ n := by
  rw [← binary64_nat n hn]
  exact binary64_mono h

theorem natLe_binary64 {q : ℚ} {n : ℕ} (hn : n ≤ 2 ^ 53) (h : (n : ℚ) ≤ q) : (n : ℚ) ≤ binary64 q := by
  rw [← binary64_nat n hn]
  exact binary64_mono h

/-- The value of `getPercent`, for numbers that fit `int128_t`. -/
def percentOf (low limit : ℕ) : ℚ :=
  min (binary64 (binary64 (100 * binary64 low) / binary64 ((max 1 limit : ℕ) : ℚ))) 100

/-- A percentage is a number from 0 to 100. -/
theorem getPercent_ok (low limit : ℕ) (h1 : low < 2 ^ 127) (h2 : limit < 2 ^ 127) :
    getPercent low limit = .ok (.fin (percentOf low limit)) ∧ 0 ≤ percentOf low limit ∧ percentOf low limit ≤ 100 := by
  have e1 : ((low : ℤ) : ℚ) = (low : ℚ) := by norm_cast
  have e2 : (((max 1 limit : ℕ) : ℤ) : ℚ) = ((max 1 limit : ℕ) : ℚ) := by norm_cast
  have hl : (low : ℚ) ≤ 2 ^ 127 := by exact_mod_cast h1.le
  have hm : ((max 1 limit : ℕ) : ℚ) ≤ 2 ^ 127 := by exact_mod_cast (by omega : max 1 limit ≤ 2 ^ 127)
  obtain ⟨a1, a2, -⟩ := round_small (q := low) (by positivity) (by linarith [show (2 : ℚ) ^ 127 < 2 ^ 200 by norm_num])
  obtain ⟨b1, -, -⟩ := round_small (q := ((max 1 limit : ℕ) : ℚ)) (by positivity)
    (by linarith [show (2 : ℚ) ^ 127 < 2 ^ 200 by norm_num])
  have a3 : binary64 low ≤ 2 ^ 127 := by
    have := binary64_mono hl
    have hz : binary64 ((2 : ℚ) ^ 127) = 2 ^ 127 := by
      have := binary64_zpow (k := 127) (by norm_num)
      exact_mod_cast this
    rwa [hz] at this
  have b3 : (1 : ℚ) ≤ binary64 ((max 1 limit : ℕ) : ℚ) := by
    have := natLe_binary64 (q := ((max 1 limit : ℕ) : ℚ)) (n := 1) (by norm_num) (by exact_mod_cast le_max_left 1 limit)
    exact_mod_cast this
  obtain ⟨c1, c2, -⟩ := round_small (q := 100 * binary64 low) (by positivity)
    (by linarith [show (100 : ℚ) * 2 ^ 127 < 2 ^ 200 by norm_num])
  have c3 : binary64 (100 * binary64 low) ≤ 2 ^ 134 := by
    have := binary64_mono (show 100 * binary64 low ≤ 2 ^ 134 by
      linarith [show (100 : ℚ) * 2 ^ 127 < 2 ^ 134 by norm_num])
    have hz : binary64 ((2 : ℚ) ^ 134) = 2 ^ 134 := by
      have := binary64_zpow (k := 134) (by norm_num)
      exact_mod_cast this
    rwa [hz] at this
  have d0 : binary64 (100 * binary64 low) / binary64 ((max 1 limit : ℕ) : ℚ) ≤ 2 ^ 134 :=
    (div_le_self c2 b3).trans c3
  obtain ⟨d1, d2, -⟩ := round_small (q := binary64 (100 * binary64 low) / binary64 ((max 1 limit : ℕ) : ℚ))
    (div_nonneg c2 (by linarith)) (by linarith [show (2 : ℚ) ^ 134 < 2 ^ 200 by norm_num])
  have hp : getPercent low limit = .ok (Dbl.inBetween (.fin 0)
      (.fin (binary64 (binary64 (100 * binary64 low) / binary64 ((max 1 limit : ℕ) : ℚ)))) (.fin 100)) := by
    unfold getPercent Dbl.ofInt
    rw [e1, e2, a1, b1]
    simp only [Dbl.mul, c1, Dbl.div]
    rw [if_neg (by linarith), d1]
    rfl
  refine ⟨?_, le_min d2 (by norm_num), min_le_right _ _⟩
  rw [hp]
  unfold percentOf Dbl.inBetween
  simp only [Dbl.lt, decide_eq_true_eq]
  rw [if_neg (not_lt.2 d2)]
  split_ifs with h
  · rw [min_eq_right h.le]
  · rw [min_eq_left (not_lt.1 h)]

/-- The percentage does not decrease when the work that has been done increases. -/
theorem percentOf_mono {a b : ℕ} (limit : ℕ) (h : a ≤ b) : percentOf a limit ≤ percentOf b limit := by
  unfold percentOf
  refine min_le_min_right _ (binary64_mono (div_le_div_of_nonneg_right (binary64_mono ?_) (binary64_nonneg (by positivity))))
  exact mul_le_mul_of_nonneg_left (binary64_mono (by exact_mod_cast h)) (by norm_num)

/-! ### src/S2Status.cpp -/

/-- What is assumed of `pow` for the progress of `S2_easy`: on numbers between 0.95 and 0.9997 with exponents from 0
to 100 it is at most 1 and at least the power with exponent 100, which is at most 0.98. -/
def Skew (l : Pi.Lib) : Prop := ∀ b p : ℚ, 95 / 100 ≤ b → b ≤ 9997 / 10000 → 0 ≤ p → p ≤ 100 →
  ∃ v w, l.pow (.fin b) (.fin p) = .fin v ∧ l.pow (.fin b) (.fin 100) = .fin w ∧ w ≤ v ∧ v ≤ 1 ∧ 0 ≤ w ∧ w ≤ 98 / 100

/-- A percentage, up to the rounding of the last subtraction. -/
def Percent (d : Dbl) : Prop := ∃ q, d = .fin q ∧ -1 / 2 ^ 40 ≤ q ∧ q ≤ 100

theorem skewedPercent_ok {l : Pi.Lib} (hl : Skew l) (x y : ℕ) (h1 : x < 2 ^ 127) (h2 : y < 2 ^ 127) :
    Ok (skewedPercent l x y) Percent := by
  obtain ⟨hp, p0, p1⟩ := getPercent_ok x y h1 h2
  unfold skewedPercent
  rw [hp]
  generalize percentOf x y = p at *
  have he : Dbl.round (96 / 100) = .fin (binary64 (96 / 100)) := by decide +kernel
  have hs : (Dbl.fin 1).sub (.fin (binary64 (96 / 100))) = .fin (binary64 (1 - binary64 (96 / 100))) := by decide +kernel
  have hq : (Dbl.fin 101).div (.fin (binary64 (1 - binary64 (96 / 100)))) =
      .ok (.fin (binary64 (101 / binary64 (1 - binary64 (96 / 100))))) := by decide +kernel
  have q1 : (2524 : ℚ) ≤ binary64 (101 / binary64 (1 - binary64 (96 / 100))) := by decide +kernel
  have e1 : (9599 / 10000 : ℚ) ≤ binary64 (96 / 100) := by decide +kernel
  have e2 : binary64 (96 / 100) ≤ (96 / 100 : ℚ) + 1 / 10 ^ 6 := by decide +kernel
  dsimp only
  rw [he, hs, ok_bind, hq, ok_bind]
  generalize hQ : binary64 (101 / binary64 (1 - binary64 (96 / 100))) = Q at *
  generalize hE : binary64 (96 / 100) = E at *
  have r1 : p / Q ≤ 3963 / 100000 := by rw [div_le_iff₀ (by linarith)]; linarith
  have r0 : 0 ≤ p / Q := div_nonneg p0 (by linarith)
  obtain ⟨r2, r3, -⟩ := round_small r0 (by linarith [show (3963 / 100000 : ℚ) < 2 ^ 200 by norm_num])
  have r4 : binary64 (p / Q) ≤ 3964 / 100000 :=
    (binary64_mono r1).trans (by decide +kernel)
  have hr : (Dbl.fin p).div (.fin Q) = .ok (.fin (binary64 (p / Q))) := by
    simp only [Dbl.div]
    rw [if_neg (by linarith), r2]
  rw [hr, ok_bind]
  generalize binary64 (p / Q) = R at *
  obtain ⟨b2, -, -⟩ := round_small (q := E + R) (by linarith) (by linarith [show (1 : ℚ) < 2 ^ 200 by norm_num])
  have b3 : 95 / 100 ≤ binary64 (E + R) :=
    le_trans (by decide +kernel : (95 / 100 : ℚ) ≤ binary64 (9599 / 10000)) (binary64_mono (by linarith))
  have b4 : binary64 (E + R) ≤ 9997 / 10000 :=
    (binary64_mono (show E + R ≤ 99965 / 100000 by linarith)).trans (by decide +kernel)
  have hb : (Dbl.fin E).add (.fin R) = .fin (binary64 (E + R)) := b2
  rw [hb]
  obtain ⟨v, w, hv, hw, w1, w2, w3, w4⟩ := hl _ p b3 b4 p0 p1
  rw [hv, hw]
  obtain ⟨d1, d2, -⟩ := round_small (q := v + -w) (by linarith) (by linarith [show (1 : ℚ) < 2 ^ 200 by norm_num])
  obtain ⟨f1, -, -⟩ := round_small (q := 1 + -w) (by linarith) (by linarith [show (1 : ℚ) < 2 ^ 200 by norm_num])
  have f2 : (19 / 1000 : ℚ) ≤ binary64 (1 + -w) :=
    le_trans (by decide +kernel : (19 / 1000 : ℚ) ≤ binary64 (2 / 100)) (binary64_mono (by linarith))
  have f3 : binary64 (1 + -w) ≤ 1 := by
    have := binary64_natLe (q := 1 + -w) (n := 1) (by norm_num) (by push_cast; linarith)
    exact_mod_cast this
  have d3 : binary64 (v + -w) ≤ binary64 (1 + -w) := binary64_mono (by linarith)
  have hd : (Dbl.fin v).sub (.fin w) = .fin (binary64 (v + -w)) := d1
  have hf : (Dbl.fin 1).sub (.fin w) = .fin (binary64 (1 + -w)) := f1
  rw [hd, hf]
  generalize binary64 (v + -w) = V at *
  generalize binary64 (1 + -w) = D at *
  obtain ⟨n1, n2, -⟩ := round_small (q := 100 * V) (by linarith) (by linarith [show (100 : ℚ) < 2 ^ 200 by norm_num])
  have n3 : binary64 (100 * V) ≤ 100 * D * (1 + 1 / 2 ^ 53) :=
    (binary64_mono (by linarith)).trans (binary64_le (by linarith))
  have hn : (Dbl.fin 100).mul (.fin V) = .fin (binary64 (100 * V)) := n1
  rw [hn]
  generalize binary64 (100 * V) = N at *
  have s0 : N / D ≤ 100 * (1 + 1 / 2 ^ 53) := by rw [div_le_iff₀ (by linarith)]; linarith
  obtain ⟨s1, s2, -⟩ := round_small (q := N / D) (div_nonneg n2 (by linarith))
    (by linarith [show (100 * (1 + 1 / 2 ^ 53) : ℚ) < 2 ^ 200 by norm_num])
  have s3 : binary64 (N / D) ≤ 100 + 1 / 2 ^ 41 := (binary64_mono s0).trans (by decide +kernel)
  have hs' : (Dbl.fin N).div (.fin D) = .ok (.fin (binary64 (N / D))) := by
    simp only [Dbl.div]
    rw [if_neg (by linarith), s1]
  rw [hs', ok_bind]
  generalize binary64 (N / D) = S at *
  have t1 : binary64 (100 + -S) ≤ 100 := by
    have := binary64_natLe (q := 100 + -S) (n := 100) (by norm_num) (by push_cast; linarith)
    exact_mod_cast this
  have t2 : -1 / 2 ^ 40 ≤ binary64 (100 + -S) :=
    le_trans (by decide +kernel : (-1 / 2 ^ 40 : ℚ) ≤ binary64 (-(1 / 2 ^ 41))) (binary64_mono (by linarith))
  refine Ok.pure ⟨binary64 (100 + -S), ?_, t2, t1⟩
  exact round_abs (abs_le.2 ⟨by linarith [show (1000 : ℚ) < 2 ^ 200 by norm_num],
    by linarith [show (1000 : ℚ) < 2 ^ 200 by norm_num]⟩)

/-- The displayed percentages, in the order in which they were written: `text` is the text for `ps`, one after the other. -/
def statusTexts (precision : ℕ) (ps : List Dbl) : Text := (ps.map (statusText precision)).flatten

/-- The percentage that a thread is about to store or to write. -/
def Pc.ok : Pc → Prop
  | .setPercent p => Percent p
  | .write p => Percent p
  | .compare n => n < 2 ^ 127
  | .locked n _ => n < 2 ^ 127
  | .setTime n _ => n < 2 ^ 127
  | .idle => True

def Thread.ok (t : Thread) : Prop := t.pc.ok ∧ ∀ n ∈ t.todo, n < 2 ^ 127

def Status.ok (precision : ℕ) (s : Status) : Prop :=
  ∃ ps, s.text = statusTexts precision ps ∧ ∀ p ∈ ps, Percent p

theorem twentieth : (Dbl.fin 1).div (.fin 20) = .ok (.fin (binary64 (1 / 20))) := by decide +kernel

theorem threadStep_ok {l : Pi.Lib} (hl : Skew l) {precision limit : ℕ} (h : limit < 2 ^ 127) (now : Dbl) {s : Status}
    {t : Thread} (hs : s.ok precision) (ht : t.ok) :
    Ok (threadStep l precision limit now s t) (fun r => r.1.ok precision ∧ r.2.ok) := by
  obtain ⟨pc, todo⟩ := t
  obtain ⟨h1, h2⟩ := ht
  unfold threadStep
  cases pc with
  | idle =>
    dsimp only
    cases todo with
    | nil => exact Ok.pure ⟨hs, trivial, h2⟩
    | cons n todo =>
      dsimp only
      split
      · exact Ok.pure ⟨hs, trivial, fun m hm => h2 m (List.mem_cons_of_mem _ hm)⟩
      · exact Ok.pure ⟨hs, h2 n List.mem_cons_self, fun m hm => h2 m (List.mem_cons_of_mem _ hm)⟩
  | locked n time =>
    dsimp only
    refine Ok.bind (P := fun _ => True) ?_ (fun b _ => Ok.pure ⟨hs, ?_, h2⟩)
    · split
      · exact Ok.pure trivial
      · rw [twentieth]
        exact Ok.pure trivial
    · dsimp only
      split
      · exact h1
      · trivial
  | setTime n time => exact Ok.pure ⟨hs, h1, h2⟩
  | compare n =>
    dsimp only
    refine (skewedPercent_ok hl n limit h1 h).bind (fun p hp => ?_)
    obtain ⟨d, hd⟩ := Dbl.div_ok one_pos (.fin 1) (Dbl.ofInt_atLeast (Nat.one_le_pow precision 10 (by norm_num)))
    rw [hd, ok_bind]
    refine Ok.pure ⟨hs, ?_, h2⟩
    dsimp only
    split
    · exact hp
    · trivial
  | setPercent p => exact Ok.pure ⟨hs, h1, h2⟩
  | write p =>
    obtain ⟨ps, h3, h4⟩ := hs
    refine Ok.pure ⟨⟨ps ++ [p], ?_, ?_⟩, trivial, h2⟩
    · dsimp only
      rw [h3]
      unfold statusTexts
      simp
    · intro q hq
      rcases List.mem_append.1 hq with hq | hq
      · exact h4 q hq
      · rw [List.mem_singleton.1 hq]
        exact h1

/-- Whatever the threads do in whatever order, only percentages are written. -/
theorem statusRun_ok {l : Pi.Lib} (hl : Skew l) {precision limit : ℕ} (h : limit < 2 ^ 127) (clock : ℕ → Dbl)
    (steps : List ℕ) (k : ℕ) {s : Status} {ts : List Thread} (hs : s.ok precision) (ht : ∀ t ∈ ts, t.ok) :
    Ok (statusRun l precision limit clock steps k s ts) (fun r => r.1.ok precision ∧ ∀ t ∈ r.2, t.ok) := by
  induction steps generalizing k s ts with
  | nil => exact Ok.pure ⟨hs, ht⟩
  | cons i steps ih =>
    unfold statusRun
    split
    · exact ih _ hs ht
    · rename_i t hi
      refine (threadStep_ok hl h (clock k) hs (ht t (List.mem_of_getElem? hi))).bind (fun r hr => ?_)
      refine ih _ hr.1 (fun t' ht' => ?_)
      rcases List.mem_or_eq_of_mem_set ht' with h1 | h1
      · exact ht t' h1
      · rw [h1]
        exact hr.2

/-! One thread -/

/-- A thread that is alone: the percentages written so far increase, and what it is going to write is larger. -/
def Alone (precision : ℕ) (s : Status) (t : Thread) : Prop :=
  t.ok ∧ ∃ ps : List ℚ, s.text = statusTexts precision (ps.map .fin) ∧ ps.Pairwise (· < ·) ∧
    match t.pc with
    | .setPercent p => ∃ q, p = .fin q ∧ (∀ r ∈ ps, r < q)
    | .write p => ∃ q, p = .fin q ∧ (∀ r ∈ ps, r < q) ∧ s.percent = .fin q
    | _ => ∃ o, s.percent = .fin o ∧ ∀ r ∈ ps, r ≤ o

theorem sub_pos_lt {e q o : ℚ} (he : 0 < e) (h : Dbl.le (.fin e) ((Dbl.fin q).sub (.fin o)) = true) : o < q := by
  by_contra hc
  have h1 : (Dbl.fin q).sub (.fin o) = Dbl.round (q + -o) := rfl
  rw [h1] at h
  unfold Dbl.round at h
  have h2 : binary64 (q + -o) ≤ 0 := by
    have := binary64_mono (show q + -o ≤ 0 by linarith [not_lt.1 hc])
    rwa [show binary64 0 = 0 by decide +kernel] at this
  split_ifs at h with h3 h4
  · exact absurd (h3.trans h2) (not_le.2 (by positivity))
  · simp [Dbl.le] at h
  · simp only [Dbl.le, decide_eq_true_eq] at h
    linarith

theorem epsilon_pos (precision : ℕ) (h : precision ≤ 5) :
    ∃ e, 0 < e ∧ (Dbl.fin 1).div (.ofInt ((10 ^ precision : ℕ) : ℤ)) = .ok (.fin e) := by
  interval_cases precision
  · exact ⟨1, by norm_num, by decide +kernel⟩
  · exact ⟨binary64 (1 / 10), by decide +kernel, by decide +kernel⟩
  · exact ⟨binary64 (1 / 100), by decide +kernel, by decide +kernel⟩
  · exact ⟨binary64 (1 / 1000), by decide +kernel, by decide +kernel⟩
  · exact ⟨binary64 (1 / 10000), by decide +kernel, by decide +kernel⟩
  · exact ⟨binary64 (1 / 100000), by decide +kernel, by decide +kernel⟩

theorem alone_step {l : Pi.Lib} (hl : Skew l) {precision limit : ℕ} (hp5 : precision ≤ 5) (h : limit < 2 ^ 127) (now : Dbl) {s : Status}
    {t : Thread} (ha : Alone precision s t) :
    Ok (threadStep l precision limit now s t) (fun r => Alone precision r.1 r.2) := by
  obtain ⟨pc, todo⟩ := t
  obtain ⟨⟨h1, h2⟩, ps, h3, h4, h5⟩ := ha
  unfold threadStep
  cases pc with
  | idle =>
    dsimp only
    cases todo with
    | nil => exact Ok.pure ⟨⟨trivial, h2⟩, ps, h3, h4, h5⟩
    | cons n todo =>
      have h6 : ∀ m ∈ todo, m < 2 ^ 127 := fun m hm => h2 m (List.mem_cons_of_mem _ hm)
      dsimp only
      split
      · exact Ok.pure ⟨⟨trivial, h6⟩, ps, h3, h4, h5⟩
      · exact Ok.pure ⟨⟨h2 n List.mem_cons_self, h6⟩, ps, h3, h4, h5⟩
  | locked n time =>
    dsimp only
    refine Ok.bind (P := fun _ => True) ?_ (fun b _ => Ok.pure ?_)
    · split
      · exact Ok.pure trivial
      · rw [twentieth]
        exact Ok.pure trivial
    · cases b
      · exact ⟨⟨trivial, h2⟩, ps, h3, h4, h5⟩
      · exact ⟨⟨h1, h2⟩, ps, h3, h4, h5⟩
  | setTime n time => exact Ok.pure ⟨⟨h1, h2⟩, ps, h3, h4, h5⟩
  | compare n =>
    dsimp only
    refine (skewedPercent_ok hl n limit h1 h).bind (fun p hp => ?_)
    obtain ⟨e, he, hd⟩ := epsilon_pos precision hp5
    rw [hd, ok_bind]
    obtain ⟨o, h6, h7⟩ := h5
    refine Ok.pure ?_
    dsimp only
    split
    · rename_i hc
      refine ⟨⟨hp, h2⟩, ps, h3, h4, ?_⟩
      obtain ⟨q, rfl, -⟩ := hp
      rw [h6] at hc
      exact ⟨q, rfl, fun r hr => lt_of_le_of_lt (h7 r hr) (sub_pos_lt he hc)⟩
    · exact ⟨⟨trivial, h2⟩, ps, h3, h4, o, h6, h7⟩
  | setPercent p =>
    obtain ⟨q, rfl, h6⟩ := h5
    exact Ok.pure ⟨⟨h1, h2⟩, ps, h3, h4, q, rfl, h6, rfl⟩
  | write p =>
    obtain ⟨q, rfl, h6, h7⟩ := h5
    refine Ok.pure ⟨⟨trivial, h2⟩, ps ++ [q], ?_, ?_, q, h7, ?_⟩
    · dsimp only
      rw [h3]
      unfold statusTexts
      simp
    · rw [List.pairwise_append]
      refine ⟨h4, List.pairwise_singleton _ _, fun a ha b hb => ?_⟩
      rw [List.mem_singleton.1 hb]
      exact h6 a ha
    · intro r hr
      rcases List.mem_append.1 hr with hr | hr
      · exact (h6 r hr).le
      · rw [List.mem_singleton.1 hr]

theorem alone_run {l : Pi.Lib} (hl : Skew l) {precision limit : ℕ} (hp5 : precision ≤ 5) (h : limit < 2 ^ 127) (clock : ℕ → Dbl)
    (steps : List ℕ) (k : ℕ) {s : Status} {t : Thread} (ha : Alone precision s t) :
    Ok (statusRun l precision limit clock steps k s [t]) (fun r => ∃ t, r.2 = [t] ∧ Alone precision r.1 t) := by
  induction steps generalizing k s t with
  | nil => exact Ok.pure ⟨t, rfl, ha⟩
  | cons i steps ih =>
    unfold statusRun
    cases i with
    | succ i => exact ih _ ha
    | zero =>
      dsimp only [List.getElem?_cons_zero]
      exact (alone_step hl hp5 h (clock k) ha).bind (fun r hr => ih _ hr)

/-! ### P2 -/

theorem bind_inv {m : M α} {f : α → M β} {b : β} (h : (m >>= f) = .ok b) : ∃ a, m = .ok a ∧ f a = .ok b := by
  cases m with
  | error e => cases h
  | ok a => exact ⟨a, rfl, h⟩

/-- `w` computes what `m` computes and a text that satisfies `P`. -/
def Writes (w : M (α × Text)) (m : M α) (P : Text → Prop) : Prop :=
  match m with
  | .ok r => ∃ t, w = .ok (r, t) ∧ P t
  | .error e => w = .error e

theorem Writes.bind {m : M α} {f : α → M (β × Text)} {g : α → M β} {P : Text → Prop}
    (h : ∀ a, m = .ok a → Writes (f a) (g a) P) : Writes (m >>= f) (m >>= g) P := by
  cases m with
  | error e => rfl
  | ok a => exact h a rfl

theorem Writes.pure {r : α} {t : Text} {P : Text → Prop} (h : P t) : Writes (Pure.pure (r, t)) (Pure.pure r) P := ⟨t, rfl, h⟩

theorem Writes.map {w : M (α × Text)} {m : M α} {P : Text → Prop} (f : α → β) (h : Writes w m P) :
    Writes (w >>= fun r => Pure.pure (f r.1, r.2)) (m >>= fun r => Pure.pure (f r)) P := by
  cases m with
  | error e =>
    have h : w = .error e := h
    rw [h]
    rfl
  | ok r =>
    obtain ⟨t, h1, h2⟩ := h
    rw [h1]
    exact ⟨t, rfl, h2⟩

/-- A loop that also collects text. -/
theorem Writes.loop {σ ρ : Type} {f : σ → M (Step σ ρ)} {g : σ × Text → M (Step (σ × Text) (ρ × Text))} (Inv : σ → Text → Prop)
    {P : Text → Prop} (hP : ∀ s t, Inv s t → P t) (h : ∀ s t, Inv s t → match f s with
      | .ok (.next s') => ∃ t', g (s, t) = .ok (.next (s', t')) ∧ Inv s' t'
      | .ok (.done r) => g (s, t) = .ok (.done (r, t))
      | .error e => g (s, t) = .error e) (n : ℕ) (s : σ) (t : Text) (hi : Inv s t) :
    Writes (PS.loop n (s, t) g) (PS.loop n s f) P := by
  induction n generalizing s t with
  | zero => rfl
  | succ n ih =>
    have h1 := h s t hi
    unfold PS.loop
    cases hf : f s with
    | error e =>
      rw [hf] at h1
      dsimp only at h1
      rw [h1]
      rfl
    | ok r =>
      rw [hf] at h1
      cases r with
      | done r =>
        dsimp only at h1
        rw [h1]
        exact ⟨t, rfl, hP s t hi⟩
      | next s' =>
        obtain ⟨t', h2, h3⟩ := h1
        rw [h2]
        exact ih s' t' h3

/-- The progress output of `P2`. -/
def p2Text (n : ℕ) (qs : List ℚ) : Text := (qs.map (fun q => "\rStatus: ".toList ++ fixed n (.fin q) ++ "%".toList)).flatten

/-- Percentages between 0 and 100 that do not decrease. -/
def Rising (qs : List ℚ) : Prop := qs.Pairwise (· ≤ ·) ∧ ∀ q ∈ qs, 0 ≤ q ∧ q ≤ 100

/-- What `P2` may write while it computes. -/
def P2Writes (f : Flags) (n : ℕ) (u : Text) : Prop := if f.print then ∃ qs, Rising qs ∧ u = p2Text n qs else u = []

theorem P2Writes.nil (f : Flags) (n : ℕ) : P2Writes f n [] := by
  unfold P2Writes
  split
  · exact ⟨[], ⟨List.Pairwise.nil, by simp⟩, rfl⟩
  · rfl

section
variable {R : Type} [Res R]

theorem fit_lt {b n m : ℕ} (h : fit b n = .ok m) : m = n ∧ n < 2 ^ b := by
  by_cases hb : n < 2 ^ b
  · rw [fit_ok hb] at h
    exact ⟨(Except.ok.inj h).symm, hb⟩
  · rw [fit_error (by omega)] at h
    cases h

theorem iteration_low {sched : Scheduler} {time : ℕ → Ordering} {size x y z : ℕ} {s s' : P2.MSt R}
    (h : P2.iteration sched time size x y z s = .ok s') : s.low ≤ s'.low ∧ s'.low < 2 ^ 63 := by
  unfold P2.iteration at h
  split at h
  · cases h
  · obtain ⟨a, -, h⟩ := bind_inv h
    obtain ⟨b, -, h⟩ := bind_inv h
    obtain ⟨c, -, h⟩ := bind_inv h
    obtain ⟨d, -, h⟩ := bind_inv h
    obtain ⟨dn, -, h⟩ := bind_inv h
    obtain ⟨low, hl, h⟩ := bind_inv h
    obtain ⟨dist, -, h⟩ := bind_inv h
    obtain rfl := Except.ok.inj h
    obtain ⟨h1, h2⟩ := fit_lt hl
    dsimp only
    omega

/-- The text so far; the last percentage is at most the one for `low`. -/
def P2Inv (f : Flags) (n z : ℕ) (s : P2.MSt R) (u : Text) : Prop :=
  s.low < 2 ^ 63 ∧ if f.print then ∃ qs, Rising qs ∧ (∀ q ∈ qs, q ≤ percentOf s.low z) ∧ u = p2Text n qs else u = []

theorem master_ok (f : Flags) (tiny : Vec PhiTiny.Tab) (sched : Scheduler) (time : ℕ → Ordering) (threads : ℤ) (x y : ℕ) :
    Writes (masterOut R f tiny sched time threads x y) (P2.master R tiny sched time threads x y)
      (P2Writes f (Main.getStatusPrecision f.set x).toNat) := by
  unfold P2.master masterOut
  split
  · exact Writes.pure (P2Writes.nil _ _)
  refine Writes.bind (fun a _ => Writes.bind (fun b _ => ?_))
  split
  · exact Writes.pure (P2Writes.nil _ _)
  refine Writes.bind (fun z' _ => Writes.bind (fun z hz => Writes.bind (fun sm _ => ?_)))
  obtain ⟨rfl, hz⟩ := fit_lt hz
  refine Writes.loop (P2Inv f (Main.getStatusPrecision f.set x).toNat z) ?_ ?_ _ _ _ ?_
  · rintro s t ⟨-, h⟩
    unfold P2Writes
    split
    · rename_i hf
      rw [if_pos hf] at h
      obtain ⟨qs, h1, -, h2⟩ := h
      exact ⟨qs, h1, h2⟩
    · rename_i hf
      rwa [if_neg hf] at h
  · rintro s t ⟨h0, h⟩
    dsimp only
    by_cases hl : s.low < z
    · rw [if_pos hl, if_pos hl]
      cases hit : P2.iteration sched time threads.toNat x y z s with
      | error e => rfl
      | ok s' =>
        obtain ⟨h1, h2⟩ := iteration_low hit
        rw [ok_bind, ok_bind]
        unfold percentText
        by_cases hf : f.print = true
        · rw [if_pos hf] at h
          obtain ⟨qs, ⟨h3, h4⟩, h5, h6⟩ := h
          obtain ⟨h7, h8, h9⟩ := getPercent_ok s'.low z (by omega) (by omega)
          have h10 : ∀ q ∈ qs, q ≤ percentOf s'.low z := fun q hq => (h5 q hq).trans (percentOf_mono z h1)
          rw [if_pos hf, h7]
          refine ⟨_, rfl, h2, ?_⟩
          rw [if_pos hf]
          refine ⟨qs ++ [percentOf s'.low z], ⟨?_, ?_⟩, ?_, ?_⟩
          · rw [List.pairwise_append]
            refine ⟨h3, List.pairwise_singleton _ _, fun a ha b hb => ?_⟩
            rw [List.mem_singleton.1 hb]
            exact h10 a ha
          · intro q hq
            rcases List.mem_append.1 hq with hq | hq
            · exact h4 q hq
            · rw [List.mem_singleton.1 hq]
              exact ⟨h8, h9⟩
          · intro q hq
            rcases List.mem_append.1 hq with hq | hq
            · exact h10 q hq
            · rw [List.mem_singleton.1 hq]
          · rw [h6]
            unfold p2Text
            simp
        · rw [if_neg hf] at h
          rw [if_neg hf, h]
          refine ⟨_, rfl, h2, ?_⟩
          rw [if_neg hf]
          rfl
    · rw [if_neg hl, if_neg hl]
      rfl
  · refine ⟨by norm_num, ?_⟩
    split
    · exact ⟨[], ⟨List.Pairwise.nil, by simp⟩, by simp, rfl⟩
    · rfl

end

theorem P2Writes.silent {f : Flags} {n : ℕ} {u : Text} (h : P2Writes f n u) : Silent f u := by
  intro h1 _
  unfold P2Writes at h
  rwa [if_neg (by rw [h1]; simp)] at h

/-- A part of the formula: silent without `--status`; with it the last lines show the result. -/
def Part (f : Flags) (name : String) (seconds : Dbl) (u : Text) (r : I256) : Prop :=
  Silent f u ∧ (f.print = true → ∃ v d, I256.print r = .ok d ∧ u = v ++ resultText name d seconds)

theorem Writes.emits {w : M (α × Text)} {m : M α} {P : Text → Prop} {g : α → W β} {m' : α → M β} {Q : α → Text → β → Prop}
    (h : Writes w m P) (hg : ∀ a, m = .ok a → Emits (g a) (m' a) (Q a)) :
    Emits ((liftM w : W (α × Text)) >>= fun r => Print.emit r.2 >>= fun _ => g r.1) (m >>= m')
      (fun u b => ∃ a v v', P v ∧ Q a v' b ∧ u = v ++ v') := by
  cases m with
  | error e =>
    have h : w = .error e := h
    intro t
    rw [h]
    rfl
  | ok a =>
    obtain ⟨t, rfl, h2⟩ := h
    have h1 := (Emits.emit t).mono (Q := fun u _ => u = t) (fun _ _ _ h => h)
    have h3 := h1.seq (hg a rfl)
    show Emits _ (m' a) _
    refine Emits.mono (P := fun u b => ∃ v v', v = t ∧ Q a v' b ∧ u = v ++ v') ?_ ?_
    · exact Emits.liftBind (m := .ok (a, t)) (g := fun _ => m' a) (f := fun r => Print.emit r.2 >>= fun _ => g r.1)
        (fun r hr => by obtain rfl := Except.ok.inj hr; exact h3)
    · rintro u b - ⟨v, v', rfl, h4, h5⟩
      exact ⟨a, v, v', h2, h4, h5⟩

/-- The end of a part. -/
theorem result_ok (f : Flags) (name : String) (r : I256) (s : Dbl) :
    Emits (sayResult f name r s >>= fun _ => Pure.pure r) (.ok r) (fun u b => Part f name s u b) := by
  refine (Emits.ret (sayResult_ok f name r s)).mono ?_
  rintro u b - ⟨⟨h1, h2⟩, rfl⟩
  refine ⟨h1, fun h => ?_⟩
  obtain ⟨d, h3, h4⟩ := h2 h
  exact ⟨[], d, h3, h4⟩

theorem Part.prepend {f : Flags} {name : String} {s : Dbl} {u v : Text} {r : I256} (h : Part f name s u r) (hv : Silent f v) :
    Part f name s (v ++ u) r := by
  refine ⟨hv.append h.1, fun hf => ?_⟩
  obtain ⟨w, d, h1, h2⟩ := h.2 hf
  exact ⟨v ++ w, d, h1, by rw [h2, List.append_assoc]⟩

/-- What `print(x, y, …)` needs. -/
def Shown (f : Flags) (x y : ℕ) : Prop := f.vars = true → 1 ≤ x ∧ x < 2 ^ 127 ∧ y ≠ 0

/-- The head of a part. -/
theorem head_ok {f : Flags} {a b : String} {x y : ℕ} {c : Option ℕ} {threads : ℤ} (hx : Shown f x y) {w : W I256} {m : M I256}
    {name : String} {s : Dbl} (h : Emits w m (Part f name s)) :
    Emits (sayTitle f a b >>= fun _ => sayVariables f x y c threads >>= fun _ => w) m (Part f name s) := by
  refine ((sayTitle_ok f a b).seq ((sayVariables_ok f x y c threads hx).seq h)).mono ?_
  rintro u r - ⟨v, v', h1, ⟨w, w', h2, h3, rfl⟩, rfl⟩
  exact (h3.prepend h2).prepend h1

theorem p2Out_ok (f : Flags) (o : OutEnv) (tiny : Vec PhiTiny.Tab) (sched : Scheduler) (time : ℕ → Ordering) (threads : ℤ)
    (x y : ℕ) (hx : Shown f x y) :
    Emits (p2Out f o tiny sched time threads x y) (P2.p2 tiny sched time threads x y) (Part f "P2" (o.seconds "P2")) := by
  refine head_ok hx ?_
  have key : Writes (if x ≤ 2 ^ 63 - 1 then do
      let r ← masterOut W128 f tiny sched time threads x y
      pure (Res.toI256 r.1, r.2)
    else do
      let r ← masterOut I256 f tiny sched time threads x y
      pure (Res.toI256 r.1, r.2) : M (I256 × Text)) (P2.p2 tiny sched time threads x y) (Silent f) := by
    have mono : ∀ {α : Type} {w : M (α × Text)} {m : M α} {n : ℕ}, Writes w m (P2Writes f n) → Writes w m (Silent f) := by
      intro α w m n h
      cases m with
      | error e => exact h
      | ok a =>
        obtain ⟨t, h1, h2⟩ := h
        exact ⟨t, h1, h2.silent⟩
    unfold P2.p2
    split
    · exact mono ((master_ok f tiny sched time threads x y).map _)
    · exact mono ((master_ok f tiny sched time threads x y).map _)
  have h := key.emits (g := fun r => sayResult f "P2" r (o.seconds "P2") >>= fun _ => Pure.pure r) (m' := fun r => .ok r)
    (fun r _ => result_ok f "P2" r (o.seconds "P2"))
  have hb : ∀ m : M I256, (m >>= fun r => (.ok r : M I256)) = m := fun m => by cases m <;> rfl
  rw [hb] at h
  refine h.mono ?_
  rintro u r - ⟨a, v, v', h1, h2, rfl⟩
  exact h2.prepend h1

/-- A part without progress output. -/
theorem plain_ok (f : Flags) {a b : String} {x y : ℕ} {c : Option ℕ} {threads : ℤ} (hx : Shown f x y) (m : M I256) (name : String) (s : Dbl) :
    Emits (sayTitle f a b >>= fun _ => sayVariables f x y c threads >>= fun _ => (liftM m : W I256) >>= fun r =>
      sayResult f name r s >>= fun _ => Pure.pure r) m (Part f name s) := by
  refine head_ok hx ?_
  have h := Emits.liftBind (m := m) (f := fun r => sayResult f name r s >>= fun _ => Pure.pure r) (g := fun r => .ok r) (Q := Part f name s)
    (fun r _ => result_ok f name r s)
  have hb : ∀ m : M I256, (m >>= fun r => (.ok r : M I256)) = m := fun m => by cases m <;> rfl
  rwa [hb] at h

theorem s1Out_ok (f : Flags) (o : OutEnv) (sched : Scheduler) (x y c : ℕ) (threads : ℤ) (hx : Shown f x y) :
    Emits (s1Out f o sched x y c threads) (PS.s1 sched x y c) (Part f "S1_sum" (o.seconds "S1")) := plain_ok f hx _ _ _

theorem s2TrivialOut_ok (f : Flags) (o : OutEnv) (sched : Scheduler) (x y z c : ℕ) (threads : ℤ) (hx : Shown f x y) :
    Emits (s2TrivialOut f o sched x y z c threads) (S2Trivial.s2Trivial sched x y z c threads)
      (Part f "S2_trivial" (o.seconds "S2_trivial")) := plain_ok f hx _ _ _

theorem s2HardOut_ok (f : Flags) (o : OutEnv) (e : S2Hard.Env) (x y z c : ℕ) (threads : ℤ) (hx : Shown f x y) :
    Emits (s2HardOut f o e x y z c threads) (S2Hard.s2Hard e x y z c threads)
      (Part f "S2_hard" (o.seconds "S2_hard")) := plain_ok f hx _ _ _

/-! ### S2_easy -/

theorem at_le {t : PiTable} (ht : t.Valid) {n v : ℕ} (h : t.at n = .ok v) : v ≤ n + 64 := by
  unfold PiTable.at at h
  obtain ⟨h1, h2⟩ := ht
  by_cases hn : n / 64 ≤ t.max / 64
  · obtain ⟨h3, h4⟩ := h2 (n / 64) hn
    rw [Vec.rd_ok (by omega)] at h
    simp only [ok_bind, pure_eq_ok] at h
    obtain rfl := Except.ok.inj h
    rw [h4, popcnt_count]
    have e1 := Nat.count_le (p := Nat.Prime) (n := 64 * (n / 64))
    have e2 := Nat.count_le (p := fun i => ((t.pi.get (n / 64)).bits &&& (0xffffffffffffffff#64 >>> (63 - n % 64))).getLsbD i = true) (n := 64)
    omega
  · unfold Vec.rd at h
    rw [if_neg (by omega)] at h
    cases h

/-- The calls of `status.print` do not go wrong and their arguments are small. -/
theorem easyCalls_ok {sched : Scheduler} (hs : sched.Valid) {x y c : ℕ} (hx : x < 2 ^ 127) {r : List (List ℕ) × ℕ}
    (h : easyCalls sched x y c = .ok r) : r.2 < 2 ^ 127 ∧ ∀ t ∈ r.1, ∀ n ∈ t, n < 2 ^ 127 := by
  unfold easyCalls at h
  obtain ⟨pi, h1, h2⟩ := PiTable.build_ok y
  rw [h1, ok_bind] at h
  obtain ⟨a, -, h⟩ := bind_inv h
  obtain ⟨b, hb, h⟩ := bind_inv h
  obtain rfl := Except.ok.inj h
  have h3 := at_le h2.2 hb
  have h4 : iroot 3 x < 2 ^ 64 := by
    by_contra hc
    have e1 := Nat.pow_le_pow_left (not_lt.1 hc) 3
    have e2 := iroot_le 3 x (by norm_num)
    norm_num at e1 hx
    omega
  refine ⟨by dsimp only; omega, fun t ht n hn => ?_⟩
  have h5 := (hs 4 (max c a + 1) (b + 1)).mem_iff.1 (List.mem_flatten.2 ⟨t, ht, hn⟩)
  rw [List.mem_range'_1] at h5
  omega

theorem omp_calls {R : Type} [Res R] {sched : Scheduler} {w : ℕ} {dv : ℕ → ℕ → M ℕ} {x y z c : ℕ} {primes sums : Vec ℕ} {r : R}
    (h : S2Easy.omp R sched w dv x y z c primes sums = .ok r) : ∃ q, easyCalls sched x y c = .ok q := by
  unfold S2Easy.omp at h
  obtain ⟨pi, h1, h⟩ := bind_inv h
  obtain ⟨a, h2, h⟩ := bind_inv h
  obtain ⟨b, h3, h⟩ := bind_inv h
  unfold easyCalls
  rw [h1, ok_bind, h2, ok_bind, h3, ok_bind]
  exact ⟨_, rfl⟩

theorem s2Easy_calls {e : Pi.Env} {x y z c : ℕ} {r : I256} (h : Pi.s2Easy e x y z c = .ok r) :
    ∃ q, easyCalls e.schedEasy x y c = .ok q := by
  unfold Pi.s2Easy at h
  split at h
  · unfold S2Easy.s2EasyLib at h
    obtain ⟨a, -, h⟩ := bind_inv h
    obtain ⟨b, -, h⟩ := bind_inv h
    obtain ⟨d, -, h⟩ := bind_inv h
    split_ifs at h
    all_goals
      obtain ⟨u, h1, -⟩ := bind_inv h
      exact omp_calls h1
  · unfold S2Easy.s2Easy at h
    obtain ⟨a, -, h⟩ := bind_inv h
    obtain ⟨b, -, h⟩ := bind_inv h
    split_ifs at h
    all_goals
      obtain ⟨u, h1, -⟩ := bind_inv h
      exact omp_calls h1

/-- The progress output of `S2_easy`: percentages. -/
theorem easyText_ok {f : Flags} (o : OutEnv) {l : Pi.Lib} {sched : Scheduler} (hs : sched.Valid) {x y c : ℕ} (hx : x < 2 ^ 127)
    (hl : f.print = true → Skew l) {q : List (List ℕ) × ℕ} (h : easyCalls sched x y c = .ok q) :
    ∃ u, easyText f o l sched x y c = .ok u ∧ Silent f u ∧ (f.print = true →
      ∃ ps, u = statusTexts (Main.getStatusPrecision f.set x).toNat ps ∧ ∀ p ∈ ps, Percent p) := by
  unfold easyText
  split
  · rename_i hf
    obtain ⟨h1, h2⟩ := easyCalls_ok hs hx h
    rw [h, ok_bind]
    obtain ⟨r, h3, h4, -⟩ := statusRun_ok (hl hf) (precision := (Main.getStatusPrecision f.set x).toNat) h1 o.clock o.steps 0 (s := {})
      (ts := q.1.map (fun t => { todo := t })) ⟨[], rfl, by simp⟩ (by
        intro t ht
        obtain ⟨t', h4, rfl⟩ := List.mem_map.1 ht
        exact ⟨trivial, h2 t' h4⟩)
    rw [h3]
    exact ⟨_, rfl, fun h5 => absurd hf (by rw [h5]; simp), fun _ => h4⟩
  · rename_i hf
    exact ⟨[], rfl, Silent.nil f, fun h1 => absurd h1 hf⟩

theorem s2EasyOut_ok {f : Flags} (o : OutEnv) {e : Pi.Env} (hs : e.schedEasy.Valid) {x : ℕ} (hx2 : x < 2 ^ 127)
    (hl : f.print = true → Skew e.lib) (y z c : ℕ) (threads : ℤ) (hx : Shown f x y) :
    Emits (s2EasyOut f o e x y z c threads) (Pi.s2Easy e x y z c) (Part f "S2_easy" (o.seconds "S2_easy")) := by
  refine head_ok hx ?_
  have h := Emits.liftBind (m := Pi.s2Easy e x y z c) (f := fun r => (liftM (easyText f o e.lib e.schedEasy x y c) : W Text) >>= fun t =>
    emit t >>= fun _ => sayResult f "S2_easy" r (o.seconds "S2_easy") >>= fun _ => Pure.pure r) (g := fun r => .ok r)
    (Q := Part f "S2_easy" (o.seconds "S2_easy")) (fun r hr => by
      obtain ⟨q, hq⟩ := s2Easy_calls hr
      obtain ⟨u, h1, h2, -⟩ := easyText_ok o hs hx2 hl hq
      rw [h1]
      refine Emits.liftBind (m := .ok u) (g := fun _ => .ok r) (fun t ht => ?_)
      obtain rfl := Except.ok.inj ht
      refine ((Emits.emit u).seq (P := fun v => v = u) (result_ok f "S2_easy" r (o.seconds "S2_easy"))).mono ?_
      rintro v b - ⟨w, w', rfl, h4, rfl⟩
      exact h4.prepend h2)
  have hb : ∀ m : M I256, (m >>= fun r => (.ok r : M I256)) = m := fun m => by cases m <;> rfl
  rwa [hb] at h

/-! ### The algorithms -/

/-- Silent, whatever the result. -/
def Quiet (f : Flags) (u : Text) (_ : I256) : Prop := Silent f u

theorem Emits.quiet {f : Flags} {w : W I256} {m : M I256} {name : String} {s : Dbl} (h : Emits w m (Part f name s)) :
    Emits w m (Quiet f) := h.mono (fun _ _ _ h => h.1)

theorem Emits.bindQuiet {f : Flags} {w : W I256} {m : M I256} {g : I256 → W I256} {m' : I256 → M I256} (h : Emits w m (Quiet f))
    (hg : ∀ a, m = .ok a → Emits (g a) (m' a) (Quiet f)) : Emits (w >>= g) (m >>= m') (Quiet f) := by
  refine (h.bind hg).mono ?_
  rintro u b - ⟨a, v, v', -, -, h1, h2, rfl⟩
  exact Silent.append h1 h2

theorem Emits.seqQuiet {f : Flags} {w : W Unit} {w' : W I256} {m : M I256} (h : Emits w (.ok ()) (fun u _ => Silent f u))
    (h' : Emits w' m (Quiet f)) : Emits (w >>= fun _ => w') m (Quiet f) := by
  refine (h.seq h').mono ?_
  rintro u b - ⟨v, v', h1, h2, rfl⟩
  exact Silent.append h1 h2

theorem Emits.pureQuiet (f : Flags) (a : I256) : Emits (Pure.pure a) (Pure.pure a) (Quiet f) :=
  (Emits.pure a).mono (fun u _ _ h => by rw [h.1]; exact Silent.nil f)

theorem piOut_ok {f : Flags} (hv : f.vars = false) (o : OutEnv) {e : Pi.Env} (hs : e.schedEasy.Valid) (tiny : Vec PhiTiny.Tab) {x : ℤ}
    (hx : x < 2 ^ 127) (hl : f.print = true → Skew e.lib) (threads : ℤ) :
    Emits (piOut f o e tiny x threads) (Pi.pi e tiny x threads) (Quiet f) := by
  unfold piOut Pi.pi
  split
  · exact Emits.pureQuiet f _
  refine Emits.liftBind (fun alpha _ => Emits.liftBind (fun limit _ => ?_))
  split
  · exact fun t => rfl
  refine Emits.liftBind (fun x13 _ => Emits.liftBind (fun y _ => Emits.liftBind (fun z _ => Emits.liftBind (fun c _ => ?_))))
  have hsh : ∀ y, Shown f x.toNat y := fun y h => absurd h (by rw [hv]; simp)
  refine Emits.seqQuiet (sayTitle_ok f _ _) ?_
  refine Emits.seqQuiet (sayAll_ok f _ _ _ _ _ _ (fun _ => by omega)) ?_
  refine Emits.bindQuiet (p2Out_ok f o tiny _ _ threads _ y (hsh y)).quiet (fun p2 _ => ?_)
  refine Emits.bindQuiet (s1Out_ok f o _ _ y c threads (hsh y)).quiet (fun s1 _ => ?_)
  unfold Pi.s2
  simp only [bind_assoc, pure_bind]
  refine Emits.bindQuiet (s2TrivialOut_ok f o _ _ y z c threads (hsh y)).quiet (fun s2t _ => ?_)
  refine Emits.bindQuiet (s2EasyOut_ok o hs (by omega) hl y z c threads (hsh y)).quiet (fun s2e _ => ?_)
  refine Emits.bindQuiet (s2HardOut_ok f o _ _ y z c threads (hsh y)).quiet (fun s2h _ => ?_)
  exact Emits.liftBind (fun t _ => Emits.pureQuiet f _)

theorem piLmo1Out_ok {f : Flags} (hv : f.vars = false) (o : OutEnv) (e : Pi.Env) (tiny : Vec PhiTiny.Tab) (x : ℤ) :
    Emits (piLmo1Out f o e tiny x) (Lmo.piLmo1 e tiny x) (Quiet f) := by
  unfold piLmo1Out Lmo.piLmo1
  split
  · exact Emits.pureQuiet f _
  refine Emits.liftBind (fun y _ => Emits.liftBind (fun piY _ => Emits.liftBind (fun c _ => Emits.liftBind (fun primes _ => ?_))))
  refine Emits.liftBind (fun lpf _ => Emits.liftBind (fun mu _ => Emits.liftBind (fun s1 _ => Emits.liftBind (fun s2 _ => ?_))))
  refine Emits.bindQuiet (p2Out_ok f o tiny _ _ 1 _ y (fun h => absurd h (by rw [hv]; simp))).quiet (fun p2 _ => ?_)
  exact Emits.liftBind (fun t _ => Emits.pureQuiet f _)

theorem piLmoOut_ok {f : Flags} (hv : f.vars = false) (title : Option String) (o : OutEnv) {e : Pi.Env} (tiny : Vec PhiTiny.Tab) {x : ℤ}
    (hf : e.FP) (hx : x < 2 ^ 106) (threads : ℤ) (s2 : ℕ → ℕ → ℕ → Vec ℕ → Vec ℕ → Vec ℤ → M I256) :
    Emits (piLmoOut title f o e tiny threads s2 x) (Lmo.piLmo e tiny threads s2 x) (Quiet f) := by
  unfold piLmoOut Lmo.piLmo
  split
  · exact Emits.pureQuiet f _
  have hsh : ∀ y, Shown f x.toNat y := fun y h => absurd h (by rw [hv]; simp)
  refine Emits.liftBind (fun alpha ha => Emits.liftBind (fun x13 h13 => Emits.liftBind (fun y hy => Emits.liftBind (fun c _ => ?_))))
  have h1 : y ≠ 0 := by
    rw [Pi.getAlphaLmo_eq] at ha
    rw [irootM_eq 3 _ _ (by norm_num)] at h13
    obtain rfl := Except.ok.inj ha
    obtain rfl := Except.ok.inj h13
    rw [Pi.yL_eq hf (by omega) (by omega)] at hy
    obtain rfl := Except.ok.inj hy
    have := (Pi.yL_facts (x := x.toNat) hf (by omega) (by omega)).1
    omega
  have body : ∀ b : Bool, Emits (do
      let p2 ← p2Out f o tiny e.schedP2 e.timeP2 threads x.toNat y
      let mu ← generateMoebius y
      let lpf ← generateLpf y
      let primes ← generatePrimesT 31 y
      let s1 ← s1Out f o e.schedS1 x.toNat y c threads
      if b then sayTitle f "=== S2(x, y) ===" "Computation of the special leaves"
      let s2 ← s2 x.toNat y c primes lpf mu
      if b then sayResult f "S2" s2 (o.seconds "S2")
      let phi := I256.add s1 s2
      let t ← P2.primeSumTiny y
      pure (I256.sub (I256.sub (I256.add phi (I256.ofInt t)) (I256.ofInt 1)) p2)) (do
      let p2 ← P2.p2 tiny e.schedP2 e.timeP2 threads x.toNat y
      let mu ← generateMoebius y
      let lpf ← generateLpf y
      let primes ← generatePrimesT 31 y
      let s1 ← PS.s1 e.schedS1 x.toNat y c
      let s2 ← s2 x.toNat y c primes lpf mu
      let phi := I256.add s1 s2
      let t ← P2.primeSumTiny y
      pure (I256.sub (I256.sub (I256.add phi (I256.ofInt t)) (I256.ofInt 1)) p2)) (Quiet f) := by
    intro b
    refine Emits.bindQuiet (p2Out_ok f o tiny _ _ threads _ y (hsh y)).quiet (fun p2 _ => ?_)
    refine Emits.liftBind (fun mu _ => Emits.liftBind (fun lpf _ => Emits.liftBind (fun primes _ => ?_)))
    refine Emits.bindQuiet (s1Out_ok f o _ _ y c threads (hsh y)).quiet (fun s1 _ => ?_)
    cases b
    · exact Emits.liftBind (fun s2 _ => Emits.liftBind (fun t _ => Emits.pureQuiet f _))
    · refine Emits.seqQuiet (sayTitle_ok f _ _) (Emits.liftBind (fun s2 _ => ?_))
      refine Emits.seqQuiet ((sayResult_ok f _ _ _).mono (fun _ _ _ h => h.1)) (Emits.liftBind (fun t _ => Emits.pureQuiet f _))
  cases title with
  | none => exact body false
  | some s =>
    have hz : cdiv x.toNat y = .ok (x.toNat / y) := by unfold cdiv; rw [if_neg h1]
    dsimp only
    rw [hz]
    have h2 := Emits.liftBind (m := .ok (x.toNat / y)) (g := fun _ => _) (Q := Quiet f) (fun z _ => Emits.seqQuiet (sayTitle_ok f s "pi(x) = S1 + S2 + pi(y) - 1 - P2")
      (Emits.seqQuiet (sayAll_ok f x.toNat y z c alpha threads (fun _ => by omega)) (body true)))
    exact h2

theorem Emits.viaI64 {f : Flags} {w : W I256} {m : M I256} (h : Emits w m (Quiet f)) :
    Emits (w >>= fun r => (liftM (viaI64 r) : W I256)) (Main.ofI64 (Lmo.toI64 m)) (Quiet f) := by
  have : Main.ofI64 (Lmo.toI64 m) = m >>= Print.viaI64 := by
    cases m with
    | error e => rfl
    | ok a =>
      unfold Main.ofI64 Lmo.toI64 Print.viaI64
      rw [ok_bind, ok_bind, bind_assoc]
      rfl
  rw [this]
  exact h.bindQuiet (fun a _ => (Emits.lift _).mono (fun u _ _ hu => by rw [hu]; exact Silent.nil f))

/-- The flags afterwards: `print_variables_` is set by the parts of the formula with `--status`. -/
def after (f : Flags) (o : Main.Opt) (x : ℤ) : Flags :=
  if f.print = true ∧ (Main.label o).isSome = true ∧ 1 ≤ x then { f with vars := true } else f

/-- The elapsed time that is printed for a part. -/
def secondsOf (o : OutEnv) : Main.Opt → Dbl
  | .P2 => o.seconds "P2"
  | .S1 => o.seconds "S1"
  | .S2Trivial => o.seconds "S2_trivial"
  | .S2Easy => o.seconds "S2_easy"
  | .S2Hard => o.seconds "S2_hard"
  | _ => o.seconds ""

/-- What the computation for an option writes: nothing without `--status`; with it a part of the formula ends with its result. -/
def RunText (f : Flags) (o : OutEnv) (opt : Main.Opt) (x : ℤ) (u : Text) (r : I256) : Prop :=
  (f.print = false → u = []) ∧
  ∀ name, Main.label opt = some name → f.print = true → 1 ≤ x →
    ∃ v d, I256.print r = .ok d ∧ u = v ++ resultText name d (secondsOf o opt)

theorem same_ok {f : Flags} {o : OutEnv} {opt : Main.Opt} {x : ℤ} (hv : f.vars = false) (hlab : Main.label opt = none) {w : W I256} {m : M I256}
    (h : Emits w m (Quiet f)) : Emits (w >>= fun r => (Pure.pure (r, f) : W (I256 × Flags))) (m >>= fun r => Pure.pure (r, after f opt x))
      (fun u r => RunText f o opt x u r.1) := by
  have ha : after f opt x = f := by
    unfold after
    rw [if_neg (by rw [hlab]; simp)]
  rw [ha]
  refine (h.bind (fun a _ => Emits.pure (a, f))).mono ?_
  rintro u r - ⟨a, v, v', -, -, h1, ⟨rfl, rfl⟩, rfl⟩
  refine ⟨fun h => ?_, fun name hn => ?_⟩
  · rw [List.append_nil]
    exact h1 h hv
  · rw [hlab] at hn
    cases hn

theorem part_ok {f : Flags} (hv : f.vars = false) {o : OutEnv} {opt : Main.Opt} {name lab : String} {e : Pi.Env} {x : ℤ} (hx : x < 2 ^ 127)
    {g : Flags → ℕ → ℕ → ℕ → ℕ → W I256} {m : ℕ → ℕ → ℕ → ℕ → M I256} (hlab : Main.label opt = some lab)
    (h : ∀ f' y z c, (f' = if f.print then { f with vars := true } else f) → Shown f' x.toNat y →
      Emits (g f' x.toNat y z c) (m x.toNat y z c) (Part f' lab (secondsOf o opt))) :
    Emits (partOut name f e x g) (Main.part name e x m >>= fun r => Pure.pure (r, after f opt x)) (fun u r => RunText f o opt x u r.1) := by
  unfold partOut Main.part
  split
  · rename_i hx1
    have ha : after f opt x = f := by
      unfold after
      rw [if_neg (by omega)]
    rw [ha]
    refine (Emits.pure _).mono ?_
    rintro u r - ⟨rfl, rfl⟩
    exact ⟨fun _ => rfl, fun _ _ _ h1 => by omega⟩
  rename_i hx1
  simp only [bind_assoc]
  refine Emits.liftBind (fun alpha _ => Emits.liftBind (fun limit _ => ?_))
  split
  · exact fun t => rfl
  simp only [bind_assoc]
  refine Emits.liftBind (fun x13 _ => Emits.liftBind (fun y _ => Emits.liftBind (fun z hz => Emits.liftBind (fun c _ => ?_))))
  have hy : y ≠ 0 := by
    rintro rfl
    cases hz
  have ha : after f opt x = (if f.print then { f with vars := true } else f) := by
    unfold after
    rw [hlab]
    by_cases hp : f.print = true
    · rw [if_pos ⟨hp, rfl, by omega⟩, if_pos hp]
    · rw [if_neg (fun h => hp h.1), if_neg hp]
  rw [ha]
  have hsh : Shown (if f.print then { f with vars := true } else f) x.toNat y := fun _ => ⟨by omega, by omega, hy⟩
  refine ((h _ y z c rfl hsh).bind (fun a _ => Emits.pure (a, _))).mono ?_
  rintro u r - ⟨a, v, v', -, -, ⟨h1, h2⟩, ⟨rfl, rfl⟩, rfl⟩
  rw [List.append_nil]
  refine ⟨fun hp => ?_, fun nm hn hp _ => ?_⟩
  · rw [if_neg (by rw [hp]; simp)] at h1
    exact h1 hp hv
  · rw [if_pos hp] at h2
    rw [hlab] at hn
    obtain rfl := Option.some.inj hn
    exact h2 hp

/-- What the computation needs in order to print. -/
structure CanPrint (f : Flags) (e : Pi.Env) : Prop where
  sched : e.schedEasy.Valid
  fp : e.FP
  skew : f.print = true → Skew e.lib

theorem cast64 (x : ℤ) : ∀ v, Main.int64Cast x = .ok v → v < 2 ^ 106 := by
  intro v h
  unfold Main.int64Cast at h
  split at h
  · cases h
  · obtain rfl := Except.ok.inj h
    have := Int.bmod_lt (x := x) (m := 2 ^ 64) (by norm_num)
    norm_num at this ⊢
    omega

theorem runOut_ok {f : Flags} (hv : f.vars = false) (o : OutEnv) {e : Pi.Env} (he : CanPrint f e) (tiny : Vec PhiTiny.Tab) (opt : Main.Opt)
    {x : ℤ} (hx : x < 2 ^ 127) (threads : ℤ) :
    Emits (runOut f o e tiny opt x threads) (Main.run e tiny opt x threads >>= fun r => Pure.pure (r, after f opt x))
      (fun u r => RunText f o opt x u r.1) := by
  have hpi := piOut_ok hv o he.sched tiny hx he.skew threads
  have hlmo : ∀ (title : Option String) (s2 : ℕ → ℕ → ℕ → Vec ℕ → Vec ℕ → Vec ℤ → M I256),
      Emits ((liftM (Main.int64Cast x) : W ℤ) >>= fun x => piLmoOut title f o e tiny 1 s2 x >>= fun r => (liftM (viaI64 r) : W I256))
        (Main.int64Cast x >>= fun x => Main.ofI64 (Lmo.toI64 (Lmo.piLmo e tiny 1 s2 x))) (Quiet f) := fun title s2 =>
    Emits.liftBind (fun v hc => (piLmoOut_ok hv title o tiny he.fp (cast64 x v hc) 1 s2).viaI64)
  have hpar : Emits ((liftM (Main.int64Cast x) : W ℤ) >>= fun x => piLmoOut (some "=== pi_lmo_parallel1(x) ===") f o e tiny threads
      (fun x y c primes lpf mu => Lmo.s2Par e.hard x y c primes lpf mu threads) x)
        (Main.int64Cast x >>= fun x => Lmo.piLmoParallel1 e tiny x threads) (Quiet f) :=
    Emits.liftBind (fun v hc => piLmoOut_ok hv _ o tiny he.fp (cast64 x v hc) threads _)
  have h1 : Emits ((liftM (Main.int64Cast x) : W ℤ) >>= fun x => piLmo1Out f o e tiny x)
        (Main.int64Cast x >>= fun x => Lmo.piLmo1 e tiny x) (Quiet f) :=
    Emits.liftBind (fun v _ => piLmo1Out_ok hv o e tiny v)
  have h0 : Emits (Pure.pure (I256.ofInt 0)) (Pure.pure (I256.ofInt 0)) (Quiet f) := Emits.pureQuiet f _
  cases opt with
  | delegliseRivat => exact same_ok hv rfl hpi
  | delegliseRivatParallel1 => exact same_ok hv rfl hpi
  | pi => exact same_ok hv rfl hpi
  | lmo => exact same_ok hv rfl hpar
  | lmoParallel1 => exact same_ok hv rfl hpar
  | lmo1 => exact same_ok hv rfl h1
  | lmo2 => exact same_ok hv rfl (hlmo _ _)
  | lmo3 => exact same_ok hv rfl (hlmo _ _)
  | lmo4 => exact same_ok hv rfl (hlmo _ _)
  | lmo5 => exact same_ok hv rfl (hlmo _ _)
  | P2 =>
    exact part_ok (opt := .P2) (g := fun f x y _ _ => p2Out f o tiny e.schedP2 e.timeP2 threads x y)
      (m := fun x y _ _ => P2.p2 tiny e.schedP2 e.timeP2 threads x y) hv hx rfl
      (fun f' y z c _ hs => p2Out_ok f' o tiny _ _ threads _ y hs)
  | S1 =>
    exact part_ok (opt := .S1) (g := fun f x y _ c => s1Out f o e.schedS1 x y c threads)
      (m := fun x y _ c => PS.s1 e.schedS1 x y c) hv hx rfl
      (fun f' y z c _ hs => s1Out_ok f' o _ _ y c threads hs)
  | S2Trivial =>
    exact part_ok (opt := .S2Trivial) (g := fun f x y z c => s2TrivialOut f o e.schedTrivial x y z c threads)
      (m := fun x y z c => S2Trivial.s2Trivial e.schedTrivial x y z c threads) hv hx rfl
      (fun f' y z c _ hs => s2TrivialOut_ok f' o _ _ y z c threads hs)
  | S2Hard =>
    exact part_ok (opt := .S2Hard) (g := fun f x y z c => s2HardOut f o e.hard x y z c threads)
      (m := fun x y z c => S2Hard.s2Hard e.hard x y z c threads) hv hx rfl
      (fun f' y z c _ hs => s2HardOut_ok f' o _ _ y z c threads hs)
  | S2Easy =>
    refine part_ok (opt := .S2Easy) (g := fun f x y z c => s2EasyOut f o e x y z c threads)
      (m := fun x y z c => Pi.s2Easy e x y z c) hv hx rfl
      (fun f' y z c hf' hs => s2EasyOut_ok o he.sched (by omega) (fun hp => he.skew ?_) y z c threads hs)
    rw [hf'] at hp
    split at hp <;> assumption
  | alpha => exact same_ok hv rfl h0
  | help => exact same_ok hv rfl h0
  | number => exact same_ok hv rfl h0
  | status => exact same_ok hv rfl h0
  | test => exact same_ok hv rfl h0
  | time => exact same_ok hv rfl h0
  | threads => exact same_ok hv rfl h0
  | version => exact same_ok hv rfl h0

end PS.Print
