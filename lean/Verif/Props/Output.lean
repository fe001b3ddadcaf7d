import Verif.Proof.Output
import Verif.Props.Settings

/-!
# Properties C69 and C70: the text on the output streams
-/

namespace PS
namespace Print
open Main.Spec
open scoped Nat.Prime

/-! ## C69: progress -/

/-- The progress output of `P2`: percentages between 0 and 100 that never decrease, whatever the timings.  Without `--status`
there is none.  The result is not affected. -/
theorem C69_p2 (R : Type) [Res R] (f : Flags) (tiny : Vec PhiTiny.Tab) (sched : Scheduler) (time : ℕ → Ordering) (threads : ℤ)
    (x y : ℕ) (r : R) (h : P2.master R tiny sched time threads x y = .ok r) :
    ∃ qs : List ℚ, qs.Pairwise (· ≤ ·) ∧ (∀ q ∈ qs, 0 ≤ q ∧ q ≤ 100) ∧ (f.print = false → qs = []) ∧
      masterOut R f tiny sched time threads x y = .ok (r,
        (qs.map (fun q => "\rStatus: ".toList ++ fixed (Main.getStatusPrecision f.set x).toNat (.fin q) ++ ['%'])).flatten) := by
  have h1 := master_ok (R := R) f tiny sched time threads x y
  rw [h] at h1
  obtain ⟨t, h2, h3⟩ := h1
  unfold P2Writes at h3
  split at h3
  · rename_i hf
    obtain ⟨qs, h4, rfl⟩ := h3
    exact ⟨qs, h4.1, h4.2, fun h => absurd hf (by rw [h]; simp), h2⟩
  · subst h3
    exact ⟨[], List.Pairwise.nil, by simp, fun _ => rfl, h2⟩

/-- A new thread, with the arguments of its calls of `status.print`. -/
def start (calls : List ℕ) : Thread := { todo := calls }

/-- The progress output of `S2_easy`: whatever the threads do, in whatever order, only percentages are written.  The lower
bound is not 0 because of rounding. -/
theorem C69_easy (l : Pi.Lib) (hl : Skew l) (precision limit : ℕ) (clock : ℕ → Dbl) (steps : List ℕ) (calls : List (List ℕ))
    (hlim : limit < 2 ^ 127) (hc : ∀ t ∈ calls, ∀ n ∈ t, n < 2 ^ 127) :
    Ok (statusRun l precision limit clock steps 0 {} (calls.map start)) (fun r =>
      ∃ qs : List ℚ, (∀ q ∈ qs, -1 / 2 ^ 40 ≤ q ∧ q ≤ 100) ∧
        r.1.text = (qs.map (fun q => statusText precision (.fin q))).flatten) := by
  refine (statusRun_ok hl hlim clock steps 0 (s := {}) (ts := calls.map start) ⟨[], rfl, by simp⟩ ?_).mono ?_
  · intro t ht
    obtain ⟨t', h4, rfl⟩ := List.mem_map.1 ht
    exact ⟨trivial, hc t' h4⟩
  · rintro r ⟨⟨ps, h1, h2⟩, -⟩
    refine ⟨ps.map (fun d => match d with | .fin q => q | _ => 0), ?_, ?_⟩
    · intro q hq
      obtain ⟨d, h3, rfl⟩ := List.mem_map.1 hq
      obtain ⟨q, rfl, h4, h5⟩ := h2 d h3
      exact ⟨h4, h5⟩
    · rw [h1]
      unfold statusTexts
      rw [List.map_map]
      congr 1
      refine List.map_congr_left (fun d hd => ?_)
      obtain ⟨q, rfl, -⟩ := h2 d hd
      rfl

/-- The calls of `S2_easy`: one for every prime that it treats, that is for every `b` such that the `b`-th prime `p` is above
`sqrt(y)`, at most `x^(1/3)` and not one of the first `c`, whichever thread treats it.  The total is the number of primes up to
`x^(1/3)`, so that the last prime gives 100 percent (`C69_end`). -/
theorem C69_easy_calls {sched : Scheduler} (hs : sched.Valid) {x y : ℕ} (c : ℕ) (hxy : x < (y + 1) ^ 3) :
    ∃ calls : List (List ℕ), easyCalls sched x y c = .ok (calls, π (iroot 3 x)) ∧ calls.flatten.Nodup ∧
      ∀ b, b ∈ calls.flatten ↔ c < b ∧ y < prm b ^ 2 ∧ prm b ^ 3 ≤ x ∧ 1 ≤ b := by
  have hx13 : iroot 3 x ≤ y := by
    by_contra hc
    have := Nat.pow_le_pow_left (show y + 1 ≤ iroot 3 x from not_le.1 hc) 3
    have := iroot_le 3 x (by norm_num)
    omega
  obtain ⟨pi, h1, h2⟩ := PiTable.build_ok y
  have hmax := h2.1
  have hsq := Nat.sqrt_le_self y
  unfold easyCalls
  rw [h1, ok_bind, PiTable.at_ok h2.2 (by omega), ok_bind, PiTable.at_ok h2.2 (by omega), ok_bind]
  have hp := hs 4 (max c (π (Nat.sqrt y)) + 1) (π (iroot 3 x) + 1)
  refine ⟨_, rfl, hp.nodup_iff.2 (List.nodup_range'), fun b => ?_⟩
  rw [hp.mem_iff, List.mem_range'_1]
  rcases Nat.eq_zero_or_pos b with rfl | hb
  · constructor
    · intro h
      omega
    · intro h
      exact absurd h.2.2.2 (by norm_num)
  have h3 : y < prm b ^ 2 ↔ π (Nat.sqrt y) < b := by
    rw [← lt_prm_iff_pi_lt hb, Nat.sqrt_lt, pow_two]
  have h4 : prm b ^ 3 ≤ x ↔ b ≤ π (iroot 3 x) := by
    rw [← not_lt, ← not_lt, ← lt_prm_iff_pi_lt hb, not_iff_not]
    exact ⟨fun h => by
      by_contra hc
      have := Nat.pow_le_pow_left (not_lt.1 hc) 3
      have := iroot_le 3 x (by norm_num)
      omega, fun h => by
      by_contra hc
      have := le_iroot (N := 3) (by norm_num) (not_lt.1 hc)
      omega⟩
  rw [h3, h4]
  omega

/-- The percentage of the last prime is 100. -/
theorem C69_end {l : Pi.Lib} (hl : Skew l) {n : ℕ} (h1 : 1 ≤ n) (h2 : n ≤ 2 ^ 46) : skewedPercent l n n = .ok (.fin 100) := by
  have hn : n ≤ 2 ^ 53 := by omega
  have hp : percentOf n n = 100 := by
    unfold percentOf
    rw [max_eq_right h1, binary64_nat n hn]
    have e1 : binary64 (100 * (n : ℚ)) = 100 * n := by
      have := binary64_nat (100 * n) (by omega)
      exact_mod_cast this
    have e2 : binary64 100 = 100 := by exact_mod_cast binary64_nat 100 (by norm_num)
    have h3 : (n : ℚ) ≠ 0 := by exact_mod_cast (by omega : n ≠ 0)
    rw [e1, mul_div_assoc, div_self h3, mul_one, e2, min_self]
  unfold skewedPercent
  rw [(getPercent_ok n n (by omega) (by omega)).1, hp]
  have hb : ∃ q r : Dbl, ∃ b : ℚ, (Dbl.fin 101).div ((Dbl.fin 1).sub (Dbl.round (96 / 100))) = .ok q ∧ (Dbl.fin 100).div q = .ok r ∧
      (Dbl.round (96 / 100)).add r = .fin b ∧ 95 / 100 ≤ b ∧ b ≤ 9997 / 10000 := by
    refine ⟨.fin (binary64 (101 / binary64 (1 - binary64 (96 / 100)))),
      .fin (binary64 (100 / binary64 (101 / binary64 (1 - binary64 (96 / 100))))),
      binary64 (binary64 (96 / 100) + binary64 (100 / binary64 (101 / binary64 (1 - binary64 (96 / 100))))), ?_⟩
    decide +kernel
  obtain ⟨q, r, b, k1, k2, k3, k4, k5⟩ := hb
  dsimp only
  rw [ok_bind, k1, ok_bind, k2, ok_bind, k3]
  obtain ⟨v, w, -, hw, -, -, w3, w4⟩ := hl b 100 k4 k5 (by norm_num) (by norm_num)
  rw [hw]
  obtain ⟨f1, -, -⟩ := round_small (q := 1 + -w) (by linarith) (by linarith [show (1 : ℚ) < 2 ^ 200 by norm_num])
  have f2 : (19 / 1000 : ℚ) ≤ binary64 (1 + -w) :=
    le_trans (by decide +kernel : (19 / 1000 : ℚ) ≤ binary64 (2 / 100)) (binary64_mono (by linarith))
  have hf : (Dbl.fin 1).sub (.fin w) = .fin (binary64 (1 + -w)) := f1
  have hz : Dbl.round 0 = .fin 0 := by decide +kernel
  have hd : (Dbl.fin w).sub (.fin w) = .fin 0 := by
    show Dbl.round (w + -w) = _
    rw [add_neg_cancel, hz]
  have hm : (Dbl.fin 100).mul (.fin 0) = .fin 0 := by decide +kernel
  have hq : (Dbl.fin 0).div (.fin (binary64 (1 + -w))) = .ok (.fin 0) := by
    simp only [Dbl.div]
    rw [if_neg (by linarith), zero_div, hz]
  rw [hd, hf, hm, hq]
  show Except.ok ((Dbl.fin 100).sub (.fin 0)) = _
  rw [show (Dbl.fin 100).sub (.fin 0) = .fin 100 by decide +kernel]

/-- `S2_easy` with x = 10^6 and y = 200 and `c = 3`: the primes from 17 (the 7th) to 97 (the 25th). -/
example : ∃ calls : List (List ℕ), easyCalls Scheduler.seq (10 ^ 6) 200 3 = .ok (calls, π (iroot 3 (10 ^ 6))) ∧ calls.flatten.Nodup ∧
    ∀ b, b ∈ calls.flatten ↔ 3 < b ∧ 200 < prm b ^ 2 ∧ prm b ^ 3 ≤ 10 ^ 6 ∧ 1 ≤ b :=
  C69_easy_calls Scheduler.seq_valid 3 (by norm_num)

/-- With one thread the percentages increase. -/
theorem C69_increasing (l : Pi.Lib) (hl : Skew l) (precision limit : ℕ) (hp : precision ≤ 5) (clock : ℕ → Dbl) (steps : List ℕ)
    (calls : List ℕ) (hlim : limit < 2 ^ 127) (hc : ∀ n ∈ calls, n < 2 ^ 127) :
    Ok (statusRun l precision limit clock steps 0 {} [start calls]) (fun r =>
      ∃ qs : List ℚ, qs.Pairwise (· < ·) ∧ r.1.text = (qs.map (fun q => statusText precision (.fin q))).flatten) := by
  refine (alone_run hl hp hlim clock steps 0 (s := {}) (t := start calls)
    ⟨⟨trivial, hc⟩, [], rfl, List.Pairwise.nil, -1, rfl, by simp⟩).mono ?_
  rintro r ⟨t, -, -, ps, h1, h2, -⟩
  refine ⟨ps, h2, ?_⟩
  rw [h1]
  unfold statusTexts
  rw [List.map_map]
  rfl

/-- With two threads they need not: the lock does not protect the variables `time_` and `percent_`.  Thread 0 and thread 1 both
pass the test before one of them stores its percentage. -/
theorem C69_race (l : Pi.Lib) (limit n1 n2 : ℕ) (p1 p2 : ℚ) (clock : ℕ → Dbl) (h1 : skewedPercent l n1 limit = .ok (.fin p1))
    (h2 : skewedPercent l n2 limit = .ok (.fin p2)) (hp1 : 0 ≤ p1 ∧ p1 ≤ 100) (hp2 : 0 ≤ p2 ∧ p2 ≤ 100) :
    Ok (statusRun l 0 limit clock [0, 0, 1, 1, 0, 0, 1, 1, 0, 0, 1, 1] 0 {} [start [n1], start [n2]])
      (fun r => r.1.text = statusText 0 (.fin p1) ++ statusText 0 (.fin p2)) := by
  have he : (Dbl.fin 1).div (.ofInt ((10 ^ 0 : ℕ) : ℤ)) = .ok (.fin 1) := by decide +kernel
  have key : ∀ p : ℚ, 0 ≤ p ∧ p ≤ 100 → (Dbl.fin 1).le ((Dbl.fin p).sub (.fin (-1))) = true := by
    intro p ⟨hp, hp'⟩
    obtain ⟨a1, -, -⟩ := round_small (q := p + - -1) (by linarith) (by linarith [show (101 : ℚ) < 2 ^ 200 by norm_num])
    have a2 : (Dbl.fin p).sub (.fin (-1)) = .fin (binary64 (p + - -1)) := a1
    rw [a2]
    have := natLe_binary64 (q := p + - -1) (n := 1) (by norm_num) (by push_cast; linarith)
    simp only [Dbl.le, decide_eq_true_eq]
    exact_mod_cast this
  have k1 := key p1 hp1
  have k2 := key p2 hp2
  simp only [statusRun, threadStep, start, h1, h2, he, List.getElem?_cons_zero, List.getElem?_cons_succ, List.set_cons_zero,
    List.set_cons_succ, pure_eq_ok, ok_bind, Dbl.isZero, k1, k2, if_true, if_false, Bool.false_eq_true, reduceIte, decide_true]
  exact Ok.pure rfl

theorem natText (n : ℕ) : (toString n).toList = decimal (n : ℤ) := by
  unfold decimal
  rw [if_neg (by omega), Int.natAbs_natCast]
  show (String.ofList (Nat.toDigits 10 n)).toList = _
  rw [String.toList_ofList]

theorem lastDigits_eq (p n : ℕ) : lastDigits p n = (List.range p).map (fun i => Nat.digitChar (n / 10 ^ (p - 1 - i) % 10)) := by
  induction p generalizing n with
  | zero => rfl
  | succ p ih =>
    rw [lastDigits, ih, List.range_succ, List.map_append, List.map_singleton]
    congr 1
    · refine List.map_congr_left (fun i hi => ?_)
      rw [Nat.div_div_eq_div_mul, ← pow_succ']
      congr 4
      have := List.mem_range.1 hi
      omega
    · simp

/-- What is shown for a percentage: a decimal number with `p` digits after the point, at most 100, that is the percentage rounded
to nearest; a negative sign only before a zero. -/
theorem C69_shown (p : ℕ) (q : ℚ) (hp : p ≤ 5) (h1 : -1 / 2 ^ 40 ≤ q) (h2 : q ≤ 100) :
    ∃ n : ℕ, n ≤ 100 * 10 ^ p ∧ (q < 0 → n = 0) ∧ |(n : ℚ) / 10 ^ p - abs q| ≤ 1 / (2 * 10 ^ p) ∧
      fixed p (.fin q) = (if q < 0 then ['-'] else []) ++ decimal ((n / 10 ^ p : ℕ) : ℤ) ++
        (if p = 0 then [] else '.' :: (List.range p).map (fun i => Nat.digitChar (n / 10 ^ (p - 1 - i) % 10))) := by
  have t0 : (0 : ℚ) < 10 ^ p := by positivity
  have t5 : (10 : ℚ) ^ p ≤ 10 ^ 5 := pow_le_pow_right₀ (by norm_num) hp
  have r0 : (0 : ℤ) ≤ roundEven (|q| * 10 ^ p) := le_roundEven_of_int_le (by push_cast; positivity)
  have hn : (((roundEven (|q| * 10 ^ p)).toNat : ℕ) : ℚ) = (roundEven (|q| * 10 ^ p) : ℚ) := by
    exact_mod_cast congrArg (Int.cast (R := ℚ)) (Int.toNat_of_nonneg r0)
  have abs100 : |q| ≤ 100 := abs_le.2 ⟨by norm_num at h1 ⊢; linarith, h2⟩
  refine ⟨(roundEven (|q| * 10 ^ p)).toNat, ?_, ?_, ?_, ?_⟩
  · have : roundEven (|q| * 10 ^ p) ≤ (100 * 10 ^ p : ℤ) := roundEven_le_of_le_int (by push_cast; gcongr)
    have e : ((100 * 10 ^ p : ℕ) : ℤ) = 100 * 10 ^ p := by push_cast; ring
    omega
  · intro hq
    have : |q| * 10 ^ p ≤ 1 / 4 := by
      rw [abs_of_neg hq]
      have : -q * 10 ^ p ≤ 1 / 2 ^ 40 * 10 ^ 5 := mul_le_mul (by linarith) t5 t0.le (by positivity)
      norm_num at this ⊢
      linarith
    have h3 := roundEven_le (|q| * 10 ^ p)
    have h4 : (roundEven (|q| * 10 ^ p) : ℚ) < 1 := by linarith
    have h5 : roundEven (|q| * 10 ^ p) < 1 := by exact_mod_cast h4
    omega
  · rw [hn]
    have h3 := roundEven_le (|q| * 10 ^ p)
    have h4 := roundEven_ge (|q| * 10 ^ p)
    have e : (roundEven (|q| * 10 ^ p) : ℚ) / 10 ^ p - |q| = (roundEven (|q| * 10 ^ p) - |q| * 10 ^ p) / 10 ^ p := by
      field_simp
    rw [e, abs_div, abs_of_pos t0, div_le_div_iff₀ t0 (by positivity)]
    have h5 : |(roundEven (|q| * 10 ^ p) : ℚ) - |q| * 10 ^ p| ≤ 1 / 2 := abs_le.2 ⟨by linarith, by linarith⟩
    nlinarith
  · rw [← natText, ← lastDigits_eq]
    rfl

/-! ## C70: the output streams of the program -/

/-- What the computation needs in order to print. -/
abbrev Printable (e : Main.Env) (pco : Main.Options) (set : Main.Settings) : Prop :=
  CanPrint ⟨set.print, false, set⟩ (Main.algEnv e set pco.option)

/-- The line with the elapsed time at the end, with `--time` or `--status`. -/
def timeLine (o : OutEnv) (pco : Main.Options) : Text := if pco.time then secondsText (o.seconds "main") else []

/-- What `main` computes and what it writes, together. -/
theorem main_streams {e : Main.Env} (o : OutEnv) {args : List (List Char)} {pco : Main.Options} {set : Main.Settings}
    (h : Accepted e args pco set) (hp : Printable e pco set) {out : Main.Output}
    (hm : Main.main e args = .ok out) :
    match out with
    | .exit _ => False
    | .error msg => mainOut e o args = .ok (.ok ⟨[], "Error: ".toList ++ msg.toList ++ ['\n'], 1⟩)
    | .result d => ∃ t, mainOut e o args = .ok (.ok ⟨t ++ d ++ ['\n'] ++ timeLine o pco, [], 0⟩) ∧ (set.print = false → t = [])
    | .named name d => set.print = true ∧ ∃ t, mainOut e o args = .ok (.ok ⟨t ++ resultText name d (secondsOf o pco.option), [], 0⟩) := by
  obtain ⟨tiny, h1, _⟩ := PhiTiny.build_ok
  unfold Main.main at hm
  unfold mainOut
  rw [h1, ok_bind, (Main.C41_starts e args pco set).2 h, ok_bind] at hm ⊢
  dsimp only at hm ⊢
  have hr := runOut_ok rfl o hp tiny pco.option (Main.x_range h).2 (getNumThreads e.ompMax set.threads)
  cases hrun : Main.run (Main.algEnv e set pco.option) tiny pco.option pco.x (getNumThreads e.ompMax set.threads) with
  | error err =>
    rw [hrun] at hm hr
    have hr := hr []
    rw [hr]
    cases err
    case thrown msg =>
      obtain rfl := Except.ok.inj hm
      rfl
    all_goals cases hm
  | ok r =>
    rw [hrun] at hm hr
    obtain ⟨u, ⟨h2, h3⟩, h4⟩ := hr
    obtain ⟨d, hd⟩ := print_total r
    rw [h4 []]
    dsimp only at hm h2 h3 ⊢
    rw [hd, ok_bind] at hm ⊢
    rw [List.nil_append]
    by_cases hc : set.print = true ∧ (Main.label pco.option).isSome = true ∧ 1 ≤ pco.x
    · obtain ⟨c1, c2, c3⟩ := hc
      obtain ⟨name, hn⟩ := Option.isSome_iff_exists.1 c2
      rw [hn] at hm
      dsimp only at hm
      rw [if_pos ⟨c1, c3⟩] at hm
      obtain rfl := Except.ok.inj hm
      obtain ⟨v, d', h5, h6⟩ := h3 name hn c1 c3
      rw [hd] at h5
      obtain rfl := Except.ok.inj h5
      refine ⟨c1, v, ?_⟩
      have ha : after ⟨set.print, false, set⟩ pco.option pco.x = ⟨set.print, true, set⟩ := if_pos ⟨c1, c2, c3⟩
      rw [ha, if_pos rfl, ← h6]
      rfl
    · have ho : out = .result d := by
        cases hlab : Main.label pco.option with
        | none =>
          rw [hlab] at hm
          exact (Except.ok.inj hm).symm
        | some name =>
          rw [hlab] at hm
          dsimp only at hm
          rw [if_neg (fun h => hc ⟨h.1, by rw [hlab]; rfl, h.2⟩)] at hm
          exact (Except.ok.inj hm).symm
      subst ho
      have ha : after ⟨set.print, false, set⟩ pco.option pco.x = ⟨set.print, false, set⟩ := if_neg hc
      rw [ha, if_neg (by simp)]
      refine ⟨u ++ (if set.print = true then nl else []), ?_, fun hp => ?_⟩
      · rfl
      · rw [h2 hp, hp]
        rfl

/-- The program prints the result in decimal, a newline and, if asked for, the elapsed time; before it the progress if
`--status` is given, otherwise nothing.  Nothing is written to the standard error stream; the exit code is 0. -/
theorem C70_result (e : Main.Env) (o : OutEnv) (args : List (List Char)) (pco : Main.Options) (set : Main.Settings)
    (h : Accepted e args pco set) (hp : Printable e pco set) (d : Text)
    (hm : Main.main e args = .ok (.result d)) :
    ∃ t, mainOut e o args = .ok (.ok ⟨t ++ d ++ ['\n'] ++ timeLine o pco, [], 0⟩) ∧ (set.print = false → t = []) :=
  main_streams o h hp hm

/-- A part of the formula with `--status`: the last lines are the result and the elapsed time. -/
theorem C70_named (e : Main.Env) (o : OutEnv) (args : List (List Char)) (pco : Main.Options) (set : Main.Settings)
    (h : Accepted e args pco set) (hp : Printable e pco set) (name : String) (d : Text)
    (hm : Main.main e args = .ok (.named name d)) :
    ∃ t s, mainOut e o args = .ok (.ok ⟨t ++ "Status: 100%\n".toList ++ name.toList ++ " = ".toList ++ d ++ ['\n'] ++
      "Seconds: ".toList ++ fixed 3 s ++ ['\n'], [], 0⟩) := by
  obtain ⟨-, t, h1⟩ := main_streams o h hp hm
  refine ⟨t ++ ("\r".toList ++ List.replicate 50 ' ' ++ "\r".toList), secondsOf o pco.option, ?_⟩
  rw [h1]
  unfold resultText secondsText nl
  simp only [List.append_assoc]
  rfl

/-- An exception: nothing on the standard output stream, one line on the standard error stream, exit code 1. -/
theorem C70_error (e : Main.Env) (o : OutEnv) (args : List (List Char)) (pco : Main.Options) (set : Main.Settings)
    (h : Accepted e args pco set) (hp : Printable e pco set) (msg : String)
    (hm : Main.main e args = .ok (.error msg)) :
    mainOut e o args = .ok (.ok ⟨[], "Error: ".toList ++ msg.toList ++ ['\n'], 1⟩) :=
  main_streams o h hp hm

/-- Help, version and self-tests are not affected. -/
theorem C70_exit (e : Main.Env) (o : OutEnv) (args : List (List Char)) (ex : Main.Exit) :
    Main.main e args = .ok (.exit ex) ↔ mainOut e o args = .ok (.error ex) := by
  obtain ⟨tiny, h1, _⟩ := PhiTiny.build_ok
  unfold Main.main mainOut
  rw [h1, ok_bind, ok_bind]
  cases hpo : Main.parseOptions e args with
  | error err => constructor <;> intro h <;> cases h
  | ok r =>
    rw [ok_bind, ok_bind]
    cases r with
    | error ex' =>
      constructor
      · intro h
        obtain rfl := Main.Output.exit.inj (Except.ok.inj h)
        rfl
      · intro h
        obtain rfl := Except.error.inj (Except.ok.inj h)
        rfl
    | ok p =>
      obtain ⟨pco, set⟩ := p
      dsimp only
      constructor
      · intro h
        exfalso
        split at h
        · obtain ⟨d, -, h⟩ := bind_inv h
          split at h
          · split at h <;> cases h
          · cases h
        · cases h
        · cases h
      · intro h
        exfalso
        split at h
        · split at h
          · cases h
          · obtain ⟨d, -, h⟩ := bind_inv h
            cases h
        · cases h
        · cases h

/-- `primesum x` without `--status` and `--time`: the standard output stream consists of the sum of the primes `≤ x` in decimal
and a newline.  Missing: see C53. -/
theorem C70_pi_partial (e : Main.Env) (o : OutEnv) (args : List (List Char)) (pco : Main.Options) (set : Main.Settings) (x : ℕ)
    (h : Accepted e args pco set) (homp : 1 ≤ e.ompMax) (ho : Main.IsPi pco.option) (hx : pco.x = x)
    (hs : ∀ a ∈ args, ∀ v, ¬ Names a .status v) (ht : ∀ a ∈ args, ∀ v, ¬ Names a .time v)
    (hv : (Main.algEnv e set pco.option).Valid)
    (hb : (Main.algEnv e set pco.option).Reach x) (hw : x < 52175271301331128848 ∨ NoWindow x 6) :
    mainOut e o args = .ok (.ok ⟨decimal (primeSum x) ++ ['\n'], [], 0⟩) := by
  have hm := Main.C53_pi_partial e args pco set x h homp ho hx hv hb hw
  have hlt := hb.lt
  have hp : set.print = false := by
    rw [← Bool.not_eq_true, h.print]
    rintro ⟨a, ha, v, hav⟩
    exact hs a ha v hav
  have htm : pco.time = false := by
    rw [← Bool.not_eq_true, h.time]
    rintro ⟨a, ha, v, hav | hav⟩
    · exact ht a ha v hav
    · exact hs a ha v hav
  obtain ⟨t, h1, h2⟩ := C70_result e o args pco set h ⟨hv.schedEasy, hv.fp, fun h => absurd h (by rw [hp]; simp)⟩ _ hm
  rw [h1, h2 hp]
  unfold timeLine
  rw [htm]
  simp

/-- For a larger `x` than the limit: the message on the standard error stream and exit code 1, also with `--status`. -/
theorem C70_too_large (e : Main.Env) (o : OutEnv) (args : List (List Char)) (pco : Main.Options) (set : Main.Settings) (x : ℕ)
    (h : Accepted e args pco set) (ho : Main.IsPi pco.option) (hp : Printable e pco set) (hx : pco.x = x) (h2 : 2 ≤ x)
    (hlim : (Main.algEnv e set pco.option).limit x < x) :
    mainOut e o args = .ok (.ok ⟨[], "Error: pi(x): x must be <= ".toList ++ decimal ((Main.algEnv e set pco.option).limit x) ++
      ['\n'], 1⟩) := by
  have h1 := C70_error e o args pco set h hp _ (Main.C53_too_large e args pco set x h ho hx h2 hp.fp hlim)
  rw [h1, String.toList_append]
  have : (toString (((Main.algEnv e set pco.option).limit x : ℕ) : ℤ)).toList = decimal ((Main.algEnv e set pco.option).limit x : ℕ) := by
    rw [← natText]
    rfl
  rw [this]
  simp

/-! ### Examples -/

/-- The library of the examples is good enough for the progress output. -/
theorem exampleLib_skew : Skew exampleLib := by
  intro b p b0 b1 p0 p1
  have hb0 : 0 ≤ b := by linarith
  have hb1 : b ≤ 1 := by linarith
  have e1 : exampleLib.pow (.fin b) (.fin p) = .fin (b ^ ⌊p⌋.toNat) := by
    simp only [exampleLib]
    rw [if_neg (fun h => by linarith [h.2]), if_pos p0]
  have e2 : exampleLib.pow (.fin b) (.fin 100) = .fin (b ^ 100) := by
    simp only [exampleLib]
    rw [if_neg (by norm_num), if_pos (by norm_num), show ⌊(100 : ℚ)⌋.toNat = 100 by norm_num; rfl]
  have hf : ⌊p⌋.toNat ≤ 100 := by
    have : ⌊p⌋ ≤ 100 := by
      have h1 := Int.floor_le p
      have h2 : (⌊p⌋ : ℚ) ≤ 100 := h1.trans p1
      exact_mod_cast h2
    omega
  refine ⟨_, _, e1, e2, pow_le_pow_of_le_one hb0 hb1 hf, pow_le_one₀ hb0 hb1, by positivity, ?_⟩
  calc b ^ 100 ≤ (9997 / 10000) ^ 100 := by gcongr
    _ ≤ 98 / 100 := by norm_num

/-- The percentages for 50 and 1 of 100. -/
theorem example_percent : ∃ p1 p2 : ℚ, skewedPercent exampleLib 50 100 = .ok (.fin p1) ∧ skewedPercent exampleLib 1 100 = .ok (.fin p2) ∧
    (0 ≤ p2 ∧ p2 ≤ 5) ∧ (50 ≤ p1 ∧ p1 ≤ 100) := by
  have key : ∀ {m : M Dbl} {a b : ℚ}, (match m with | .ok (.fin q) => decide (a ≤ q ∧ q ≤ b) | _ => false) = true →
      ∃ q, m = .ok (.fin q) ∧ a ≤ q ∧ q ≤ b := by
    intro m a b h
    split at h
    · exact ⟨_, rfl, of_decide_eq_true h⟩
    · cases h
  obtain ⟨p1, h1, h2⟩ := key (m := skewedPercent exampleLib 50 100) (a := 50) (b := 100) (by decide +kernel)
  obtain ⟨p2, h3, h4⟩ := key (m := skewedPercent exampleLib 1 100) (a := 0) (b := 5) (by decide +kernel)
  exact ⟨p1, p2, h1, h3, h4, h2⟩

/-- The display goes back: first at least 50%, then at most 5%. -/
example (clock : ℕ → Dbl) : ∃ p1 p2 : ℚ, p2 < p1 ∧
    Ok (statusRun exampleLib 0 100 clock [0, 0, 1, 1, 0, 0, 1, 1, 0, 0, 1, 1] 0 {} [start [50], start [1]])
      (fun r => r.1.text = statusText 0 (.fin p1) ++ statusText 0 (.fin p2)) := by
  obtain ⟨p1, p2, h1, h2, h3, h4⟩ := example_percent
  exact ⟨p1, p2, by linarith, C69_race exampleLib 100 50 1 p1 p2 clock h1 h2 ⟨by linarith, h4.2⟩ ⟨h3.1, by linarith⟩⟩

example (clock : ℕ → Dbl) (steps : List ℕ) :
    Ok (statusRun exampleLib 1 20 clock steps 0 {} [start [5, 6, 7]]) (fun r =>
      ∃ qs : List ℚ, qs.Pairwise (· < ·) ∧ r.1.text = (qs.map (fun q => statusText 1 (.fin q))).flatten) :=
  C69_increasing exampleLib exampleLib_skew 1 20 (by norm_num) clock steps [5, 6, 7] (by norm_num) (by decide)

example : skewedPercent exampleLib 25 25 = .ok (.fin 100) := C69_end exampleLib_skew (by norm_num) (by norm_num)

/-- Two threads. -/
example (clock : ℕ → Dbl) (steps : List ℕ) :
    Ok (statusRun exampleLib 2 20 clock steps 0 {} ([[5, 7], [6, 8]].map start)) (fun r =>
      ∃ qs : List ℚ, (∀ q ∈ qs, -1 / 2 ^ 40 ≤ q ∧ q ≤ 100) ∧ r.1.text = (qs.map (fun q => statusText 2 (.fin q))).flatten) :=
  C69_easy exampleLib exampleLib_skew 2 20 clock steps _ (by norm_num) (by decide)

/-- `P2(10^12, 10^5)` with 4 threads. -/
example (f : Flags) : ∃ (tiny : Vec PhiTiny.Tab) (r : W128) (qs : List ℚ), qs.Pairwise (· ≤ ·) ∧ masterOut W128 f tiny Scheduler.seq (fun _ => .lt) 4 (10 ^ 12) (10 ^ 5) =
    .ok (r, (qs.map (fun q => "\rStatus: ".toList ++ fixed (Main.getStatusPrecision f.set (10 ^ 12 : ℕ)).toNat (.fin q) ++ ['%'])).flatten) := by
  obtain ⟨tiny, h1, h2⟩ := PhiTiny.build_ok
  obtain ⟨r, h3, -⟩ := P2_val h2 Scheduler.seq_valid (fun _ => .lt) (threads := 4) (by norm_num) (x := 10 ^ 12) (y := 10 ^ 5) (by norm_num)
    (by norm_num) (by norm_num)
  unfold P2.p2 at h3
  rw [if_pos (by norm_num)] at h3
  obtain ⟨q, h4, -⟩ := bind_inv h3
  obtain ⟨qs, h5, -, -, h6⟩ := C69_p2 W128 f _ _ _ _ _ _ _ h4
  exact ⟨tiny, q, qs, h5, h6⟩

example : statusText 1 (.fin (497 / 40)) = "\r             \rStatus: 12.4%".toList := by decide +kernel

/-- `primesum 100`. -/
example (o : OutEnv) : mainOut Main.exampleMainEnv o ["100".toList] = .ok (.ok ⟨"1060\n".toList, [], 0⟩) := by
  have h : Accepted Main.exampleMainEnv ["100".toList] ⟨100, .pi, false⟩ {} := (Main.C41_starts _ _ _ _).1 rfl
  have hs : primeSum 100 = 1060 := by unfold primeSum; decide +kernel
  obtain ⟨t, h1, h2⟩ := C70_result Main.exampleMainEnv o _ _ _ h
    ⟨(Main.exampleMainEnv_valid h _).schedEasy, (Main.exampleMainEnv_valid h _).fp, fun _ => exampleLib_skew⟩ _
    (Main.C53_pi_partial Main.exampleMainEnv _ _ _ 100 h (by decide) (by unfold Main.IsPi; decide) rfl (Main.exampleMainEnv_valid h _)
      (Or.inl (by norm_num)) (Or.inl (by norm_num)))
  rw [h1, h2 rfl, hs]
  rfl

end Print
end PS
