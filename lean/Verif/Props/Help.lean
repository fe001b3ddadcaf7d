import Verif.Proof.Help
import Verif.Proof.DefaultLimit
import Verif.Props.Output
import Verif.Props.SelfTest
import Verif.Props.Safety

/-!
# Property C71: the help screen, its promises, and the exit codes
-/

namespace PS
namespace Print
open Main.Spec

/-! ## What the help screen says -/

/-- The lines of a text. -/
def lines (t : Text) : List Text := t.splitOnP (· = '\n')

/-- The words of a line. -/
def words (t : Text) : List Text := (t.splitOnP (· = ' ')).filter (· ≠ [])

/-- The lines of the help screen that describe an option, reduced to the words that start with `-`. -/
def optionLines : List (List Text) :=
  ((lines helpMenu).map words).filter (fun l => (l.head?.bind List.head?) = some '-') |>.map
    (fun l => l.filter (fun w => w.head? = some '-'))

/-- The name of an option in the help screen, without the description of its value. -/
def nameOf (w : Text) : Text := w.takeWhile (fun c => c.isAlphanum ∨ c = '-' ∨ c = '_')

/-- The description of its value: `<N>` is a number, `[N]` a number that can be omitted. -/
def valueOf (w : Text) : String := String.ofList ((w.drop (nameOf w).length).filter (· ≠ ','))

/-- The program understands the option that `w` describes as `o`. -/
def Understood (w : Text) (o : Main.Opt) : Prop :=
  match valueOf w with
  | "" => Names (nameOf w) o []
  | "<N>" => ∀ d v, IsDecimal d → Names (nameOf w ++ d :: v) o (d :: v)
  | "=<N>" => ∀ v, Names (nameOf w ++ '=' :: v) o v
  | "[N]" => Names (nameOf w) o [] ∧ ∀ d v, IsDecimal d → Names (nameOf w ++ d :: v) o (d :: v)
  | "[=N]" => Names (nameOf w) o [] ∧ ∀ v, Names (nameOf w ++ '=' :: v) o v
  | _ => False

/-- No name of an option begins with `-` and a letter and has more than two characters. -/
theorem long_names (o : Main.Opt) : ∀ n ∈ names o, n.toList.length ≤ 2 ∨ n.toList[1]? = some '-' := by
  cases o <;> decide +kernel

theorem understood_short {l : Char} {o : Main.Opt} (hs : Spells ['-', l] o) (hl : l ≠ '-') (hd : ¬ IsDecimal l) (d : Char) (v : Text)
    (h : IsDecimal d) : Names (['-', l] ++ d :: v) o (d :: v) := by
  refine Names.digit hs ?_ h ?_
  · intro c hc
    simp only [List.mem_cons, List.not_mem_nil, or_false] at hc
    rcases hc with rfl | rfl
    · unfold IsDecimal; decide
    · exact hd
  · rintro o' ⟨n, hn, he⟩
    rcases long_names o' n hn with h1 | h1
    · rw [← he] at h1
      simp at h1
    · rw [← he] at h1
      simp only [List.cons_append, List.getElem?_cons_succ, List.getElem?_cons_zero, Option.some.injEq] at h1
      exact hl h1

/-- Every option in the help screen exists, with the value that is described there; the two names in a line are names of the same
option. -/
theorem C71_documented : ∀ l ∈ optionLines, ∃ o, ∀ w ∈ l, Understood w o := by
  have he : optionLines = [["-d,".toList, "--deleglise_rivat".toList], ["-l,".toList, "--lmo".toList],
      ["-s[N],".toList, "--status[=N]".toList], ["--test".toList], ["--time".toList], ["-t<N>,".toList, "--threads=<N>".toList],
      ["-v,".toList, "--version".toList], ["-h,".toList, "--help".toList], ["-a<N>,".toList, "--alpha=<N>".toList], ["--P2".toList],
      ["--S1".toList], ["--S2_trivial".toList], ["--S2_easy".toList], ["--S2_hard".toList]] := by decide +kernel
  rw [he]
  have nd : ∀ s : String, s ∈ ["--status", "--threads", "--alpha"] → ∀ c ∈ s.toList, ¬ IsDecimal c := by
    unfold IsDecimal
    decide +kernel
  intro l hl
  simp only [List.mem_cons, List.not_mem_nil, or_false] at hl
  rcases hl with rfl | rfl | rfl | rfl | rfl | rfl | rfl | rfl | rfl | rfl | rfl | rfl | rfl | rfl
  · refine ⟨.delegliseRivat, fun w hw => ?_⟩
    fin_cases hw
    · exact Names.plain ⟨"-d", by decide, rfl⟩
    · exact Names.plain ⟨"--deleglise_rivat", by decide, rfl⟩
  · refine ⟨.lmo, fun w hw => ?_⟩
    fin_cases hw
    · exact Names.plain ⟨"-l", by decide, rfl⟩
    · exact Names.plain ⟨"--lmo", by decide, rfl⟩
  · refine ⟨.status, fun w hw => ?_⟩
    fin_cases hw
    · exact ⟨Names.plain ⟨"-s", by decide, rfl⟩, understood_short ⟨"-s", by decide, rfl⟩ (by decide) (by unfold IsDecimal; decide)⟩
    · exact ⟨Names.plain ⟨"--status", by decide, rfl⟩, fun v => Names.eq (s := "--status".toList) ⟨"--status", by decide, rfl⟩ (nd _ (by simp))⟩
  · refine ⟨.test, fun w hw => ?_⟩
    fin_cases hw
    exact Names.plain ⟨"--test", by decide, rfl⟩
  · refine ⟨.time, fun w hw => ?_⟩
    fin_cases hw
    exact Names.plain ⟨"--time", by decide, rfl⟩
  · refine ⟨.threads, fun w hw => ?_⟩
    fin_cases hw
    · exact understood_short ⟨"-t", by decide, rfl⟩ (by decide) (by unfold IsDecimal; decide)
    · exact fun v => Names.eq (s := "--threads".toList) ⟨"--threads", by decide, rfl⟩ (nd _ (by simp))
  · refine ⟨.version, fun w hw => ?_⟩
    fin_cases hw
    · exact Names.plain ⟨"-v", by decide, rfl⟩
    · exact Names.plain ⟨"--version", by decide, rfl⟩
  · refine ⟨.help, fun w hw => ?_⟩
    fin_cases hw
    · exact Names.plain ⟨"-h", by decide, rfl⟩
    · exact Names.plain ⟨"--help", by decide, rfl⟩
  · refine ⟨.alpha, fun w hw => ?_⟩
    fin_cases hw
    · exact understood_short ⟨"-a", by decide, rfl⟩ (by decide) (by unfold IsDecimal; decide)
    · exact fun v => Names.eq (s := "--alpha".toList) ⟨"--alpha", by decide, rfl⟩ (nd _ (by simp))
  · refine ⟨.P2, fun w hw => ?_⟩
    fin_cases hw
    exact Names.plain ⟨"--P2", by decide, rfl⟩
  · refine ⟨.S1, fun w hw => ?_⟩
    fin_cases hw
    exact Names.plain ⟨"--S1", by decide, rfl⟩
  · refine ⟨.S2Trivial, fun w hw => ?_⟩
    fin_cases hw
    exact Names.plain ⟨"--S2_trivial", by decide, rfl⟩
  · refine ⟨.S2Easy, fun w hw => ?_⟩
    fin_cases hw
    exact Names.plain ⟨"--S2_easy", by decide, rfl⟩
  · refine ⟨.S2Hard, fun w hw => ?_⟩
    fin_cases hw
    exact Names.plain ⟨"--S2_hard", by decide, rfl⟩

example : nameOf "-s[N],".toList = "-s".toList ∧ valueOf "-s[N],".toList = "[N]" := by decide +kernel

/-! ## The exit codes -/

theorem program_exit {e : Main.Env} (o : OutEnv) (t : SelfTest.Env) {args : List (List Char)} {ex : Main.Exit}
    (h : Main.parseOptions e args = .ok (.error ex)) : program e o t args = exitOut t ex := by
  unfold program
  rw [(C70_exit e o args ex).1 (Main.C41_exit e args ex h), ok_bind]

/-- A command line with an unknown argument: the help screen on the standard output stream, exit code 1. -/
theorem C71_unknown (e : Main.Env) (o : OutEnv) (t : SelfTest.Env) (pre post : List (List Char)) (a : List Char)
    (hpre : ∀ b ∈ pre, ∃ o v, Names b o v ∧ Good e o v) (h : ∀ o v, ¬ Names a o v) :
    program e o t (pre ++ a :: post) = .ok ⟨helpMenu ++ ['\n'], [], 1⟩ :=
  program_exit o t (Main.C41_unknown e pre post a hpre h)

/-- No number, or more than one: the same. -/
theorem C71_not_one (e : Main.Env) (o : OutEnv) (t : SelfTest.Env) (args : List (List Char))
    (hg : ∀ b ∈ args, ∃ o v, Names b o v ∧ Good e o v)
    (h : ¬ ∃ pre a post v, args = pre ++ a :: post ∧ Names a .number v ∧ ∀ b ∈ pre ++ post, ∀ v, ¬ Names b .number v) :
    program e o t args = .ok ⟨helpMenu ++ ['\n'], [], 1⟩ :=
  program_exit o t (Main.C41_not_one e args hg h)

/-- `--help` prints the help screen and `--version` the version, both with exit code 1 as after an error. -/
theorem C71_asked (e : Main.Env) (o : OutEnv) (t : SelfTest.Env) (pre post : List (List Char)) (a v : List Char) (op : Main.Opt)
    (hpre : ∀ b ∈ pre, ∃ o v, Names b o v ∧ Good e o v) (h : Names a op v) (ho : op = .help ∨ op = .version) :
    program e o t (pre ++ a :: post) = .ok ⟨(if op = .help then helpMenu else versionInfo) ++ ['\n'], [], 1⟩ := by
  rw [program_exit o t (Main.C41_stops e pre post a v op hpre h (by unfold Stops; rcases ho with rfl | rfl <;> decide))]
  rcases ho with rfl | rfl <;> rfl

/-- `--test` reports its progress, that all tests passed, and exits with code 0. -/
theorem C71_test (e : Main.Env) (o : OutEnv) (t : SelfTest.Env) (ht : t.Valid) (pre post : List (List Char)) (a v : List Char)
    (hpre : ∀ b ∈ pre, ∃ o v, Names b o v ∧ Good e o v) (h : Names a .test v) :
    program e o t (pre ++ a :: post) = .ok ⟨testText t.omp ++ "All tests passed successfully!\n".toList, [], 0⟩ := by
  rw [program_exit o t (Main.C41_stops e pre post a v .test hpre h (by unfold Stops; decide))]
  obtain ⟨tiny, h1, _⟩ := PhiTiny.build_ok
  have h2 := C63_self_test t ht
  unfold SelfTest.test at h2
  rw [h1, ok_bind] at h2
  have hb : SelfTest.body t tiny = .ok () := by
    unfold SelfTest.report at h2
    split at h2
    · assumption
    · cases h2
    · cases h2
  have h3 := bodyOut_says t tiny []
  rw [hb] at h3
  show testOut t = _
  unfold testOut
  rw [h1, ok_bind]
  obtain ⟨r, s, hr⟩ : ∃ r s, (bodyOut t tiny).run.run [] = (r, s) := ⟨_, _, rfl⟩
  rw [hr] at h3 ⊢
  obtain ⟨rfl, h4⟩ := h3
  have h5 := h4 () rfl
  dsimp only at h5
  subst h5
  simp only [List.nil_append, List.append_assoc]
  rfl

/-- If a comparison fails, the message is on the standard error stream, the standard output stream does not end with the message
of success, and the exit code is 1. -/
theorem C71_test_fails (t : SelfTest.Env) (h : SelfTest.test t = .ok false) :
    ∃ out msg, testOut t = .ok ⟨out, ['\n'] ++ msg ++ ['\n'], 1⟩ := by
  obtain ⟨tiny, h1, _⟩ := PhiTiny.build_ok
  unfold SelfTest.test at h
  rw [h1, ok_bind] at h
  unfold SelfTest.report at h
  split at h
  · cases h
  · rename_i msg hb
    have h3 := (bodyOut_says t tiny []).1
    rw [hb] at h3
    unfold testOut
    rw [h1, ok_bind]
    obtain ⟨r, s, hr⟩ : ∃ r s, (bodyOut t tiny).run.run [] = (r, s) := ⟨_, _, rfl⟩
    rw [hr] at h3 ⊢
    obtain rfl := h3
    exact ⟨s, msg.toList, rfl⟩
  · cases h

/-- Otherwise the text is that of `C70`. -/
theorem C71_else (e : Main.Env) (o : OutEnv) (t : SelfTest.Env) (args : List (List Char)) (s : Streams)
    (h : mainOut e o args = .ok (.ok s)) : program e o t args = .ok s := by
  unfold program
  rw [h]
  rfl

/-! ## The largest number -/

/-- The promise of the help screen, "x <= 10^31", does not hold: without `--alpha`, numbers from `6 * 10^30` on are rejected. -/
theorem C71_rejected (e : Main.Env) (o : OutEnv) (t : SelfTest.Env) (args : List (List Char)) (pco : Main.Options) (set : Main.Settings)
    (x : ℕ) (h : Accepted e args pco set) (ho : Main.IsPi pco.option) (hp : Printable e pco set)
    (hl : (e.alg pco.option).lib.Accurate) (ha : ∀ a ∈ args, ∀ v, ¬ Names a .alpha v) (hx : pco.x = x) (h1 : 6 * 10 ^ 30 ≤ x) :
    ∃ limit : ℕ, limit < x ∧ program e o t args = .ok ⟨[], "Error: pi(x): x must be <= ".toList ++ decimal limit ++ ['\n'], 1⟩ := by
  have hd : set.alpha = .fin (-1) := by
    obtain ⟨r, h3, h4⟩ := h.alpha
    cases r with
    | none => exact h4
    | some q =>
      obtain ⟨p, a, q, h5, ⟨v, h6, -⟩, -⟩ := h3
      exact absurd h6 (ha a (by rw [h5]; simp) v)
  have h2 : x < 2 ^ 127 := by have := (Main.x_range h).2; omega
  have hlim := Pi.limit_lt_default (e := Main.algEnv e set pco.option) hp.fp hl (by show set.alpha.lt _ = true; rw [hd]; decide +kernel) h1 h2
  exact ⟨_, hlim, C71_else e o t args _ (C70_too_large e o args pco set x h ho hp hx (by omega) hlim)⟩

/-- Numbers up to `5 * 10^30` are not rejected, nor are they with another tuning factor below `2^91` (C43). -/
theorem C71_limit (e : Main.Env) (args : List (List Char)) (pco : Main.Options) (set : Main.Settings)
    (x : ℕ) (h : Accepted e args pco set) (hf : (Main.algEnv e set pco.option).FP)
    (hl : (e.alg pco.option).lib.Accurate) (ha : ∀ a ∈ args, ∀ v, ¬ Names a .alpha v) (h1 : 1 ≤ x) (h2 : x ≤ 5 * 10 ^ 30) :
    x ≤ (Main.algEnv e set pco.option).limit x := by
  have hd : set.alpha = .fin (-1) := by
    obtain ⟨r, h3, h4⟩ := h.alpha
    cases r with
    | none => exact h4
    | some q =>
      obtain ⟨p, a, q, h5, ⟨v, h6, -⟩, -⟩ := h3
      exact absurd h6 (ha a (by rw [h5]; simp) v)
  exact Pi.le_limit_default (e := Main.algEnv e set pco.option) hf hl (by show set.alpha.lt _ = true; rw [hd]; decide +kernel) h1 h2

/-- With a tuning factor of 202 or more, `10^31` is accepted. -/
theorem C71_alpha (e : Pi.Env) (hf : e.FP) (a : ℚ) (ha : e.alpha = .fin a) (h1 : 202 ≤ a) : 10 ^ 31 ≤ e.limit (10 ^ 31) := by
  obtain ⟨-, h3, -⟩ := Pi.limit_ok hf (x := 10 ^ 31) (by norm_num) (by norm_num)
  have h4 : 202 ≤ Pi.toQ (e.alphaD (10 ^ 31)) := by
    have r : 202 ≤ iroot 6 (10 ^ 31) := le_iroot (by norm_num) (by norm_num)
    have r' : (202 : ℚ) ≤ iroot 6 (10 ^ 31) := by exact_mod_cast r
    have ho := Dbl.ofInt_nat (iroot 6 (10 ^ 31)) (le_trans (Pi.sixth_lt (by norm_num)).le (by norm_num))
    unfold Pi.Env.alphaD Pi.clampAlpha Dbl.inBetween
    have hlt : Dbl.lt (.fin a) (.fin 1) = false := by
      simp only [Dbl.lt, decide_eq_false_iff_not]
      exact not_lt.2 (by linarith)
    rw [ha, ho, hlt]
    simp only [Bool.false_eq_true, if_false, hlt]
    split
    · exact r'
    · exact h1
  have h5 : (2 ^ 61 * 202 : ℚ) ^ 3 ≤ (2 ^ 61 * Pi.toQ (e.alphaD (10 ^ 31))) ^ 3 := by gcongr
  by_contra hc
  push Not at hc
  have h6 : (e.limit (10 ^ 31) : ℚ) + 1 ≤ 10 ^ 31 := by exact_mod_cast hc
  have h7 : ((e.limit (10 ^ 31) : ℚ) + 1) ^ 2 ≤ (10 ^ 31) ^ 2 := by gcongr
  norm_num at h3 h5 h7
  linarith

set_option maxRecDepth 10000 in
/-- The examples of the help screen print the sum of the primes up to `10^13`. -/
theorem C71_examples (e : Main.Env) (o : OutEnv) (t : SelfTest.Env) (homp : 1 ≤ e.ompMax) (hv : ∀ set, set.alpha = .fin (-1) → (Main.algEnv e set .pi).Valid) :
    program e o t ["1e13".toList] = .ok ⟨decimal (primeSum (10 ^ 13)) ++ ['\n'], [], 0⟩ ∧
    (Skew (e.alg .pi).lib → ∃ progress, program e o t ["1e13".toList, "--status".toList, "--threads=4".toList] =
      .ok ⟨progress ++ decimal (primeSum (10 ^ 13)) ++ ['\n'] ++ "Seconds: ".toList ++ fixed 3 (o.seconds "main") ++ ['\n'], [], 0⟩) := by
  constructor
  · have h : Accepted e ["1e13".toList] ⟨10 ^ 13, .pi, false⟩ {} := (Main.C41_starts e _ _ _).1 rfl
    have hv := hv {} rfl
    obtain ⟨u, h1, h2⟩ := C70_result e o _ _ _ h ⟨hv.schedEasy, hv.fp, fun hc => by cases hc⟩ _
      (Main.C53_pi_partial e _ _ _ (10 ^ 13) h homp (by unfold Main.IsPi; decide) (by norm_num) hv (Or.inl (by norm_num)) (Or.inl (by norm_num)))
    rw [C71_else e o t _ _ h1, h2 rfl]
    generalize decimal _ = d
    unfold timeLine
    rw [if_neg (by decide), List.nil_append, List.append_nil]
  · intro hs
    have h : Accepted e ["1e13".toList, "--status".toList, "--threads=4".toList] ⟨10 ^ 13, .pi, true⟩
        { threads := setNumThreads e.ompMax ⟨0⟩ 4, print := true } := by
      refine (Main.C41_starts e _ _ _).1 ?_
      have o1 : Main.makeOption "1e13".toList = (.number, "1e13".toList) := by decide +kernel
      have o2 : Main.makeOption "--status".toList = (.status, []) := by decide +kernel
      have o3 : Main.makeOption "--threads=4".toList = (.threads, "4".toList) := by decide +kernel
      have v1 : Main.toInt128? "1e13".toList = .ok (some (10 ^ 13)) := by rfl
      have v2 : Main.toInt128? "4".toList = .ok (some 4) := by rfl
      have v3 : Main.toInt 4 = 4 := by decide +kernel
      simp only [Main.parseOptions, Main.parseLoop, Main.step, o1, o2, o3, Main.apply, v1, v2, v3, ok_bind, ne_eq, not_true_eq_false,
        if_false, List.nil_append]
    have hv := hv { threads := setNumThreads e.ompMax ⟨0⟩ 4, print := true } rfl
    obtain ⟨u, h1, -⟩ := C70_result e o _ _ _ h ⟨hv.schedEasy, hv.fp, fun _ => hs⟩ _
      (Main.C53_pi_partial e _ _ _ (10 ^ 13) h homp (by unfold Main.IsPi; decide) (by norm_num) hv (Or.inl (by norm_num)) (Or.inl (by norm_num)))
    refine ⟨u, ?_⟩
    rw [C71_else e o t _ _ h1]
    generalize decimal _ = d
    unfold timeLine secondsText nl
    rw [if_pos rfl]
    simp only [List.append_assoc]

/-! ### Examples -/

/-- An accurate C library. -/
noncomputable def accurateLib : Pi.Lib where
  log
    | .fin q => .fin (Classical.epsilon (fun v : ℚ => Real.log q ≤ v ∧ v ≤ Real.log q + 1 / 10 ^ 7))
    | _ => .nan
  pow := exampleLib.pow

theorem near_log (q : ℚ) : Real.log q ≤ (Classical.epsilon (fun v : ℚ => Real.log q ≤ v ∧ v ≤ Real.log q + 1 / 10 ^ 7) : ℚ) ∧
    (Classical.epsilon (fun v : ℚ => Real.log q ≤ v ∧ v ≤ Real.log q + 1 / 10 ^ 7) : ℚ) ≤ Real.log q + 1 / 10 ^ 7 := by
  refine Classical.epsilon_spec (p := fun v : ℚ => Real.log q ≤ v ∧ v ≤ Real.log q + 1 / 10 ^ 7) ?_
  obtain ⟨v, h1, h2⟩ := exists_rat_btwn (show Real.log q < Real.log q + 1 / 10 ^ 7 by norm_num)
  exact ⟨v, h1.le, h2.le⟩

theorem accurateLib_log {n : ℕ} (h1 : 1 ≤ n) (h2 : n < 2 ^ 127) :
    ∃ v : ℚ, accurateLib.log (.ofInt n) = .fin v ∧ |(v : ℝ) - Real.log n| ≤ 1 / 10 ^ 6 ∧ 0 ≤ v := by
  have h1' : (1 : ℚ) ≤ n := by exact_mod_cast h1
  have l1 := binary64_ge h1'
  have l2 := binary64_le h1'
  obtain ⟨q, hq, -⟩ := Dbl.ofInt_near h1 h2
  have hb : q = binary64 (n : ℚ) := by
    unfold Dbl.ofInt Dbl.round at hq
    rw [Int.cast_natCast] at hq
    split at hq
    · cases hq
    · split at hq
      · cases hq
      · exact (Dbl.fin.inj hq).symm
  rw [hq]
  refine ⟨_, rfl, ?_⟩
  have h3 := near_log q
  rw [hb] at h3 ⊢
  set b := binary64 (n : ℚ)
  have n0 : (0 : ℝ) < n := by exact_mod_cast h1
  have m1 : (n : ℝ) * (1 - 1 / 2 ^ 53) ≤ b := by
    have := (Rat.cast_le (K := ℝ)).2 l1
    push_cast at this
    exact this
  have m2 : (b : ℝ) ≤ n * (1 + 1 / 2 ^ 53) := by
    have := (Rat.cast_le (K := ℝ)).2 l2
    push_cast at this
    exact this
  have b0 : (0 : ℝ) < b := lt_of_lt_of_le (by positivity) m1
  have e1 : Real.log b - Real.log n ≤ 1 / 10 ^ 10 := by
    rw [← Real.log_div b0.ne' n0.ne']
    refine (Real.log_le_sub_one_of_pos (by positivity)).trans ?_
    rw [div_sub_one n0.ne', div_le_iff₀ n0]
    norm_num at m2 ⊢
    linarith
  have e2 : Real.log n - Real.log b ≤ 1 / 10 ^ 10 := by
    rw [← Real.log_div n0.ne' b0.ne']
    refine (Real.log_le_sub_one_of_pos (by positivity)).trans ?_
    rw [div_sub_one b0.ne', div_le_iff₀ b0]
    norm_num at m1 ⊢
    linarith
  have b1 : (1 : ℝ) ≤ b := by
    have := (Rat.cast_le (K := ℝ)).2 (natLe_binary64 (n := 1) (by norm_num) (by push_cast; exact h1'))
    push_cast at this
    exact this
  have v0 := (Real.log_nonneg b1).trans h3.1
  refine ⟨?_, by exact_mod_cast v0⟩
  rw [abs_le]
  norm_num at h3 e1 e2 ⊢
  constructor <;> linarith

theorem accurateLib_accurate : accurateLib.Accurate where
  log n h1 h2 := by
    obtain ⟨v, h3, h4, -⟩ := accurateLib_log h1 h2
    exact ⟨v, h3, h4⟩
  sq v h0 h1 := by
    refine ⟨v ^ 2, ?_, by simp⟩
    simp only [accurateLib, exampleLib]
    rw [if_neg (by norm_num), if_pos (by norm_num), show ⌊(2 : ℚ)⌋.toNat = 2 by norm_num; rfl]
  cube v h0 h1 := by
    refine ⟨v ^ 3, ?_, by simp⟩
    simp only [accurateLib, exampleLib]
    rw [if_neg (by norm_num), if_pos (by norm_num), show ⌊(3 : ℚ)⌋.toNat = 3 by norm_num; rfl]

theorem accurateLib_ok : accurateLib.OK where
  log n h1 h2 := by
    obtain ⟨v, h3, h4, h5⟩ := accurateLib_log h1 h2
    refine ⟨v, h3, h5, ?_⟩
    have l1 : Real.log n ≤ 127 * Real.log 2 := by
      have : ((127 : ℕ) : ℝ) * Real.log 2 = Real.log (2 ^ 127) := by rw [Real.log_pow]
      norm_num at this ⊢
      rw [this]
      refine Real.log_le_log (by exact_mod_cast h1) ?_
      have : (n : ℝ) ≤ (2 ^ 127 : ℕ) := by exact_mod_cast h2.le
      exact this.trans (by norm_num)
    have l2 := Real.log_two_lt_d9
    rw [abs_le] at h4
    have : (v : ℝ) ≤ 100 := by
      norm_num at h4 l2 ⊢
      linarith
    exact_mod_cast this
  sq := exampleLib_ok.sq
  cube := exampleLib_ok.cube
  pow61 := exampleLib_ok.pow61
  pow32 := exampleLib_ok.pow32

/-- The environment of the examples with an accurate C library. -/
noncomputable def accurateEnv : Main.Env := ⟨8, Main.exampleMainEnv.toDouble, fun _ => { exampleEnv 3 true with lib := accurateLib }⟩

theorem accurateEnv_fp {args : List (List Char)} {pco : Main.Options} {set : Main.Settings} (h : Accepted accurateEnv args pco set)
    (op : Main.Opt) : (Main.algEnv accurateEnv set op).FP :=
  ⟨accurateLib_ok, Main.C68_accepted (e := accurateEnv) Main.exampleMainEnv_toDouble h⟩

theorem accurateLib_skew : Skew accurateLib := exampleLib_skew

/-- `primesum 1e31`. -/
example (o : OutEnv) (t : SelfTest.Env) : ∃ limit : ℕ, limit < 10 ^ 31 ∧ program accurateEnv o t ["1e31".toList] =
    .ok ⟨[], "Error: pi(x): x must be <= ".toList ++ decimal limit ++ ['\n'], 1⟩ := by
  have h : Accepted accurateEnv ["1e31".toList] ⟨10 ^ 31, .pi, false⟩ {} := (Main.C41_starts _ _ _ _).1 rfl
  refine C71_rejected accurateEnv o t _ _ _ (10 ^ 31) h (by unfold Main.IsPi; decide)
    ⟨Scheduler.seq_valid, accurateEnv_fp h _, fun _ => accurateLib_skew⟩ accurateLib_accurate ?_ (by norm_num) (by norm_num)
  intro a ha v hn
  simp only [List.mem_cons, List.not_mem_nil, or_false] at ha
  subst ha
  have := Main.makeOption_of_names hn
  rw [show Main.makeOption "1e31".toList = (.number, "1e31".toList) by decide +kernel] at this
  cases this

/-- `primesum 5e30`. -/
example : 5 * 10 ^ 30 ≤ (Main.algEnv accurateEnv {} .pi).limit (5 * 10 ^ 30) := by
  have h : Accepted accurateEnv ["5e30".toList] ⟨5 * 10 ^ 30, .pi, false⟩ {} := (Main.C41_starts _ _ _ _).1 rfl
  refine C71_limit accurateEnv _ _ _ _ h (accurateEnv_fp h _) accurateLib_accurate ?_ (by norm_num) (by norm_num)
  intro a ha v hn
  simp only [List.mem_cons, List.not_mem_nil, or_false] at ha
  subst ha
  have := Main.makeOption_of_names hn
  rw [show Main.makeOption "5e30".toList = (.number, "5e30".toList) by decide +kernel] at this
  cases this

theorem accurateEnv_valid {args : List (List Char)} {pco : Main.Options} {set : Main.Settings} (h : Accepted accurateEnv args pco set)
    (op : Main.Opt) : (Main.algEnv accurateEnv set op).Valid :=
  ⟨Scheduler.seq_valid, Scheduler.seq_valid, Scheduler.seq_valid, Scheduler.seq_valid, Scheduler.seq_valid,
    Merge_seq_valid, accurateEnv_fp h op⟩

/-- C51, C52 and C72: `primesum 5e30`.  This is out of reach of C01. -/
example : InBounds (Main.main accurateEnv ["5e30".toList]) ∧ Terminates (Main.main accurateEnv ["5e30".toList]) ∧
    Ok (runPi (Main.algEnv accurateEnv {} .pi) (5 * 10 ^ 30 : ℕ) 8) (fun r => (2 ^ 64 : ℤ) ∣ r.val - primeSum (5 * 10 ^ 30)) := by
  have h : Accepted accurateEnv ["5e30".toList] ⟨5 * 10 ^ 30, .pi, false⟩ {} := (Main.C41_starts _ _ _ _).1 rfl
  have ha : ∀ a ∈ ["5e30".toList], ∀ v, ¬ Names a .alpha v := by
    intro a ha v hn
    simp only [List.mem_cons, List.not_mem_nil, or_false] at ha
    subst ha
    have := Main.makeOption_of_names hn
    rw [show Main.makeOption "5e30".toList = (.number, "5e30".toList) by decide +kernel] at this
    cases this
  exact ⟨Main.C51_main_default accurateEnv _ (by decide) (by decide) ha (fun _ => accurateLib_accurate) (fun _ _ h => accurateEnv_valid h _),
    Main.C52_main_default accurateEnv _ (by decide) (by decide) ha (fun _ => accurateLib_accurate) (fun _ _ h => accurateEnv_valid h _),
    C72_low64_default _ _ 8 (accurateEnv_valid h _) accurateLib_accurate (by decide +kernel) (by norm_num) (by norm_num) (by norm_num)
      (C71_limit accurateEnv _ _ _ _ h (accurateEnv_fp h _) accurateLib_accurate ha (by norm_num) (by norm_num))⟩

/-- `primesum --test`. -/
example (o : OutEnv) : program Main.exampleMainEnv o ⟨true, 4, fun k i => k * 12345 + i * i * 7919, fun k _ i b _ => exampleEnv (k + i) b,
    fun _ _ => Scheduler.seq, Scheduler.seq⟩ ["--test".toList] =
      .ok ⟨testText true ++ "All tests passed successfully!\n".toList, [], 0⟩ :=
  C71_test _ o _ ⟨by norm_num, fun _ _ => Scheduler.seq_valid, Scheduler.seq_valid, fun k _ i b x hx =>
    ⟨exampleEnv_valid _ _, exampleEnv_lmo _ _⟩⟩ [] [] _ [] (by simp) (Names.plain ⟨"--test", by decide, rfl⟩)

/-- `primesum -s -v`. -/
example (o : OutEnv) (t : SelfTest.Env) : program Main.exampleMainEnv o t ["-s".toList, "-v".toList] = .ok ⟨versionInfo ++ ['\n'], [], 1⟩ :=
  C71_asked _ o t ["-s".toList] [] _ [] .version (by
    intro b hb
    simp only [List.mem_cons, List.not_mem_nil, or_false] at hb
    subst hb
    exact ⟨.status, [], Names.plain ⟨"-s", by decide, rfl⟩, by unfold Stops; decide, by simp, by simp⟩)
    (Names.plain ⟨"-v", by decide, rfl⟩) (Or.inr rfl)

/-- `primesum` without arguments. -/
example (o : OutEnv) (t : SelfTest.Env) : program Main.exampleMainEnv o t [] = .ok ⟨helpMenu ++ ['\n'], [], 1⟩ :=
  C71_not_one _ o t [] (by simp) (by simp)

/-- The examples of the help screen, with the library of the examples. -/
example (o : OutEnv) (t : SelfTest.Env) : program Main.exampleMainEnv o t ["1e13".toList] =
    .ok ⟨decimal (primeSum (10 ^ 13)) ++ ['\n'], [], 0⟩ :=
  (C71_examples Main.exampleMainEnv o t (by decide) (fun set h => ⟨Scheduler.seq_valid, Scheduler.seq_valid, Scheduler.seq_valid,
    Scheduler.seq_valid, Scheduler.seq_valid, Merge_seq_valid, ⟨exampleLib_ok, by show set.alpha ≠ _; rw [h]; simp⟩⟩)).1

end Print
end PS
