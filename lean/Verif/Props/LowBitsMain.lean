import Verif.Props.LowBits
import Verif.Props.Safety

/-!
# Property C72 for the program: the low bits of the number that is printed
-/

namespace PS
namespace Main
open Spec Calc.Spec

/-- The text `s` shows a number that differs from `n` by a multiple of `m`: it is written in decimal, where 0 may have a minus
sign (C38). -/
def ShowsMod (s : List Char) (m n : ℤ) : Prop :=
  ∃ v : ℤ, m ∣ v - n ∧ (s = decimal v ∨ (v = 0 ∧ s = ['-', '0']))

theorem print_shows (r : I256) (k : ℕ) (hk : k ≤ 128) (n : ℤ) (h : (2 ^ k : ℤ) ∣ r.val - n) :
    Ok (I256.print r) (fun s => ShowsMod s (2 ^ k) n) := by
  by_cases hm : r.val = -2 ^ 255
  · have : r = I256.minValue := I256.val_inj (by rw [hm, I256.C38_print_counterexample.1])
    refine ⟨_, by rw [this]; exact I256.C38_print_counterexample.2, 0, ?_, Or.inr ⟨rfl, rfl⟩⟩
    have h2 : (2 ^ k : ℤ) ∣ 2 ^ 255 := pow_dvd_pow _ (by omega)
    rw [hm] at h
    have := dvd_add h h2
    have e : (-2 ^ 255 - n : ℤ) + 2 ^ 255 = 0 - n := by ring
    rwa [e] at this
  · exact ⟨_, I256.C38_print256_partial r hm, r.val, h, Or.inl rfl⟩

theorem main_shows {e : Env} {args : List (List Char)} {pco : Options} {set : Settings} {x : ℕ}
    (h : Accepted e args pco set) (ho : IsPi pco.option) (hx : pco.x = x) {k : ℕ} (hk : k ≤ 128) {n : ℤ}
    (hr : Ok (runPi (algEnv e set pco.option) x (getNumThreads e.ompMax set.threads)) (fun r => (2 ^ k : ℤ) ∣ r.val - n)) :
    ∃ s, main e args = .ok (.result s) ∧ ShowsMod s (2 ^ k) n := by
  obtain ⟨tiny, h1, _⟩ := PhiTiny.build_ok
  obtain ⟨r, h2, h3⟩ := hr
  obtain ⟨s, h4, h5⟩ := print_shows r k hk n h3
  have hr : run (algEnv e set pco.option) tiny pco.option pco.x (getNumThreads e.ompMax set.threads) = .ok r := by
    rw [← h2]
    show _ = (do let tiny ← PhiTiny.build; Pi.pi _ tiny x _)
    rw [h1, ok_bind, hx]
    unfold IsPi at ho
    simp only [List.mem_cons, List.not_mem_nil, or_false] at ho
    rcases ho with h | h | h <;> rw [h] <;> rfl
  obtain ⟨out, h6, h7⟩ := main_accepted h (P := fun out => out = .result s)
    ⟨tiny, h1, r, hr, _, h4, by
      unfold IsPi at ho
      simp only [List.mem_cons, List.not_mem_nil, or_false] at ho
      rcases ho with h | h | h <;> rw [h] <;> rfl⟩
  exact ⟨s, by rw [h6, h7], h5⟩

/-- The number that the program prints for an `x < 2^103` up to the limit: its low 64 bits are right, and its low 128 bits as
long as the sieve is right. -/
theorem C72_main (e : Env) (args : List (List Char)) (pco : Options) (set : Settings) (x : ℕ)
    (h : Accepted e args pco set) (homp : 1 ≤ e.ompMax) (homp' : e.ompMax ≤ 2 ^ 26) (ho : IsPi pco.option) (hx : pco.x = x)
    (hv : (algEnv e set pco.option).Valid) (hlim : x ≤ (algEnv e set pco.option).limit x) (hlt : x < 2 ^ 103) :
    ∃ s, main e args = .ok (.result s) ∧ ShowsMod s (2 ^ 64) (primeSum x) ∧
      ((algEnv e set pco.option).Reach x → ShowsMod s (2 ^ 128) (primeSum x)) := by
  have hth := threads_pos h homp
  by_cases hb : (algEnv e set pco.option).Reach x
  · obtain ⟨s, h1, h2⟩ := main_shows h ho hx le_rfl (C72_low128 _ x _ hv hth hb)
    refine ⟨s, h1, ?_, fun _ => h2⟩
    obtain ⟨v, h3, h4⟩ := h2
    exact ⟨v, dvd_trans (by norm_num) h3, h4⟩
  · obtain ⟨s, h1, h2⟩ := main_shows h ho hx (by norm_num : 64 ≤ 128)
      (C72_low64 _ x _ hv hth (by have := threads_le h homp; omega) hlim hlt)
    exact ⟨s, h1, h2, fun h => absurd h hb⟩

/-- A command line without `--alpha`, for every number: the program prints a message that the number is too large, or a
number of which the low 64 bits are right. -/
theorem C72_main_default (e : Env) (args : List (List Char)) (pco : Options) (set : Settings)
    (h : Accepted e args pco set) (homp : 1 ≤ e.ompMax) (homp' : e.ompMax ≤ 2 ^ 26) (ho : IsPi pco.option)
    (hv : (algEnv e set pco.option).Valid) (ha : ∀ a ∈ args, ∀ v, ¬ Names a .alpha v) (hl : (e.alg pco.option).lib.Accurate) :
    (∃ s, main e args = .ok (.result s) ∧ ShowsMod s (2 ^ 64) (primeSum pco.x.toNat)) ∨
    ∃ limit : ℤ, limit < pco.x ∧ main e args = .ok (.error ("pi(x): x must be <= " ++ toString limit)) := by
  rcases lt_or_ge pco.x 2 with h2 | h2
  · refine Or.inl ⟨_, C53_small e args pco set h (Or.inl ho) h2, 0, ?_, Or.inl rfl⟩
    rw [primeSum_lt_two (by omega)]
    simp
  obtain ⟨n, hn⟩ := Int.eq_ofNat_of_zero_le (by omega : 0 ≤ pco.x)
  rcases lt_or_ge ((algEnv e set pco.option).limit n) n with hlim | hlim
  · exact Or.inr ⟨_, by rw [hn]; exact_mod_cast hlim,
      C53_too_large e args pco set n h ho hn (by omega) hv.fp hlim⟩
  · have hd : set.alpha = .fin (-1) := by
      obtain ⟨r, h3, h4⟩ := h.alpha
      cases r with
      | none => exact h4
      | some q =>
        obtain ⟨p, a, q, h5, ⟨v, h6, -⟩, -⟩ := h3
        exact absurd h6 (ha a (by rw [h5]; simp) v)
    have hd' : (algEnv e set pco.option).alpha.lt (.fin 1) = true := by show set.alpha.lt _ = true; rw [hd]; decide +kernel
    have hlt : n < 2 ^ 103 := by
      by_contra hc
      have := Pi.limit_lt_default hv.fp hl hd' (x := n) (by norm_num at hc ⊢; omega)
        (by have := (x_range h).2; rw [hn] at this; exact_mod_cast this)
      omega
    obtain ⟨s, h3, h4, -⟩ := C72_main e args pco set n h homp homp' ho hn hv hlim hlt
    refine Or.inl ⟨s, h3, ?_⟩
    rw [hn, Int.toNat_natCast]
    exact h4

/-- Non-vacuity: where the result is not equal (C01). -/
example : ∃ s, main exampleMainEnv ["52175271301331128848".toList] = .ok (.result s) ∧
    ShowsMod s (2 ^ 128) (primeSum 52175271301331128848) := by
  have h : Accepted exampleMainEnv ["52175271301331128848".toList] ⟨52175271301331128848, .pi, false⟩ {} :=
    (C41_starts _ _ _ _).1 rfl
  have hr : (algEnv exampleMainEnv {} .pi).Reach 52175271301331128848 := Or.inl (by norm_num)
  obtain ⟨s, h1, -, h2⟩ := C72_main _ _ _ _ 52175271301331128848 h (by decide) (by decide) (by unfold IsPi; decide) rfl
    (exampleMainEnv_valid h _) (hr.limit (exampleMainEnv_valid h _).fp (by norm_num)) (by norm_num)
  exact ⟨s, h1, h2 hr⟩

/-! ## The parts of the formula -/

theorem part_low {E : Pi.Env} {x : ℕ} {o : Opt} {threads : ℤ} {tiny : Vec PhiTiny.Tab} {name : String}
    (ht : PhiTiny.Valid tiny 6) (hv : E.Valid) (hth : 1 ≤ threads) (hthr : threads ≤ 2 ^ 26) (hx1 : 1 ≤ x)
    (hlt : x < 2 ^ 103) (hlim : x ≤ E.limit x) (hl : label o = some name) :
    Ok (run E tiny o x threads) (fun r => (2 ^ 64 : ℤ) ∣ r.val - partValue o x (E.y x) (min 6 (Nat.primeCounting (E.y x)))) := by
  obtain ⟨y1, y2, y3⟩ := Pi.y_facts hv.fp hx1 (by omega)
  obtain ⟨c1, c2, c3⟩ := c_cases (E.y x)
  have hzl := Pi.z_le_limit hv.fp hx1 (by omega) hlim
  by_cases h1 : o = .S1
  · subst h1
    refine part_ok (name := "S1") (f := fun x y _ c => PS.s1 E.schedS1 x y c) hv.fp hx1 hlt hlim ?_
    exact (C12_low128 _ hv.schedS1 x _ _ (by omega) y1 y2 (prm_small (by omega)) c2).mono (fun r hr => dvd_trans (by norm_num) hr)
  by_cases h2 : o = .S2Hard
  · subst h2
    exact part_ok (name := "S2_hard") (f := fun x y z c => S2Hard.s2Hard E.hard x y z c threads) hv.fp hx1 hlt hlim
      (C15_low64 E.hard x _ _ threads hv.schedHard hv.merge y1 y2 y3 c1 (by omega) (by omega) (by omega) hthr)
  · exact (part_run ht hv hth hx1 hlt hlim (fun h => absurd h h2) (fun h => absurd h h1) hl).mono
      (fun r hr => by rw [hr]; simp)

/-- `--P2`, `--S1`, `--S2_trivial`, `--S2_easy`, `--S2_hard`: the low 64 bits of the number printed are right for every
`x < 2^103` up to the limit, also where the number is not (C54). -/
theorem C54_low64 (e : Env) (args : List (List Char)) (pco : Options) (set : Settings) (x : ℕ) (name : String)
    (h : Accepted e args pco set) (homp : 1 ≤ e.ompMax) (homp' : e.ompMax ≤ 2 ^ 26) (hl : label pco.option = some name)
    (hx : pco.x = x) (hv : (algEnv e set pco.option).Valid) (hx1 : 1 ≤ x)
    (hlt : x < 2 ^ 103) (hlim : x ≤ (algEnv e set pco.option).limit x) :
    ∃ s, main e args = .ok (if set.print then .named name s else .result s) ∧
      ShowsMod s (2 ^ 64) (partValue pco.option x ((algEnv e set pco.option).y x)
        (min 6 (Nat.primeCounting ((algEnv e set pco.option).y x)))) := by
  obtain ⟨tiny, h1, ht⟩ := PhiTiny.build_ok
  have key := part_low (o := pco.option) (tiny := tiny) ht hv (threads_pos h homp) (by have := threads_le h homp; omega) hx1 hlt hlim hl
  obtain ⟨r, h2, h3⟩ := key
  obtain ⟨s, h4, h5⟩ := print_shows r 64 (by norm_num) _ h3
  obtain ⟨out, h6, h7⟩ := main_accepted h (P := fun out => out = if set.print then .named name s else .result s)
    ⟨tiny, h1, r, by rw [hx]; exact h2, s, h4, by
      rw [hl]
      dsimp only
      have : (1 : ℤ) ≤ pco.x := by omega
      simp only [ge_iff_le, this, and_true]⟩
  exact ⟨s, by rw [h6, h7], h5⟩

/-- Non-vacuity: `10^25` is out of reach of C54 for `--S1` unless `NoWindow` is known. -/
example : ∃ s, main exampleMainEnv ["--S1".toList, "10^25".toList] = .ok (.result s) ∧
    ShowsMod s (2 ^ 64) (partValue .S1 (10 ^ 25) ((algEnv exampleMainEnv {} .S1).y (10 ^ 25))
      (min 6 (Nat.primeCounting ((algEnv exampleMainEnv {} .S1).y (10 ^ 25))))) := by
  have h : Accepted exampleMainEnv ["--S1".toList, "10^25".toList] ⟨10 ^ 25, .S1, false⟩ {} :=
    (C41_starts _ _ _ _).1 rfl
  have hf := (exampleMainEnv_valid h .S1).fp
  exact C54_low64 _ _ _ _ (10 ^ 25) _ h (by decide) (by decide) rfl (by norm_num) (exampleMainEnv_valid h _) (by norm_num)
    (by norm_num) ((C43_limit _ _ hf (by norm_num) (by norm_num)).2.2.1 (by norm_num))

/-! ## `pi(string)` -/

/-- What `pi(const string&, int)` returns for an expression of the value `x < 2^103` up to the limit. -/
theorem C72_string (e : Pi.Env) (s : String) (t : Expr) (x : ℕ) (threads : ℤ) (hp : Parses s t)
    (ht : t.eval = .ok (x : ℤ)) (hv : e.Valid) (hth : 1 ≤ threads) (hthr : threads ≤ 2 ^ 26) (hlim : x ≤ e.limit x)
    (hlt : x < 2 ^ 103) :
    Ok (do let tiny ← PhiTiny.build; piString e tiny s threads) (fun r => ShowsMod r (2 ^ 64) (primeSum x)) := by
  obtain ⟨tiny, h1, _⟩ := PhiTiny.build_ok
  obtain ⟨r, h2, h3⟩ := C72_low64 e x threads hv hth hthr hlim hlt
  obtain ⟨d, h4, h5⟩ := print_shows r 64 (by norm_num) _ h3
  change (do let tiny ← PhiTiny.build; Pi.pi e tiny x threads) = _ at h2
  rw [h1, ok_bind] at h2 ⊢
  unfold piString
  rw [Calc.C39_eval hp, ht, ok_bind, h2, ok_bind]
  exact ⟨d, h4, h5⟩

/-- An expression whose value is less than 2 gives 0. -/
theorem C55_small (e : Pi.Env) (s : String) (t : Expr) (x : ℤ) (threads : ℤ) (hp : Parses s t) (ht : t.eval = .ok x)
    (hx : x < 2) : (do let tiny ← PhiTiny.build; piString e tiny s threads) = .ok ['0'] := by
  obtain ⟨tiny, h1, _⟩ := PhiTiny.build_ok
  obtain ⟨r, h2, h3⟩ := C04_pi_small e x threads hx
  change (do let tiny ← PhiTiny.build; Pi.pi e tiny x threads) = _ at h2
  rw [h1, ok_bind] at h2 ⊢
  unfold piString
  rw [Calc.C39_eval hp, ht, ok_bind, h2, ok_bind, I256.C38_print256_partial r (by rw [h3]; norm_num), h3]
  rfl

/-- An expression whose value is above the limit is refused with a message. -/
theorem C55_too_large (e : Pi.Env) (s : String) (t : Expr) (x : ℕ) (threads : ℤ) (hp : Parses s t)
    (ht : t.eval = .ok (x : ℤ)) (hf : e.FP) (h2 : 2 ≤ x) (hx : x < 2 ^ 127) (hlim : e.limit x < x) :
    (do let tiny ← PhiTiny.build; piString e tiny s threads) =
      .error (.thrown ("pi(x): x must be <= " ++ toString (e.limit x : ℤ))) := by
  obtain ⟨tiny, h1, _⟩ := PhiTiny.build_ok
  have h3 := C43_throws e x threads hf h2 hx hlim
  change (do let tiny ← PhiTiny.build; Pi.pi e tiny x threads) = _ at h3
  rw [h1, ok_bind] at h3 ⊢
  unfold piString
  rw [Calc.C39_eval hp, ht, ok_bind, h3]
  rfl

example : Ok (do let tiny ← PhiTiny.build; piString (exampleEnv 60 true) tiny "10^30" 8)
    (fun r => ShowsMod r (2 ^ 64) (primeSum (10 ^ 30))) := by
  obtain ⟨t, h1, h2⟩ := Calc.C40_sound (str := "10^30") (v := (10 ^ 30 : ℕ)) (by decide +kernel)
  exact C72_string _ _ t _ 8 h1 h2 (exampleEnv_valid 60 true) (by norm_num) (by norm_num) (limit_60 _ (by norm_num) le_rfl) (by norm_num)

example : (do let tiny ← PhiTiny.build; piString (exampleEnv 60 true) tiny "3-5" 8) = .ok ['0'] := by
  obtain ⟨t, h1, h2⟩ := Calc.C40_sound (str := "3-5") (v := -2) (by decide +kernel)
  exact C55_small _ _ t _ 8 h1 h2 (by norm_num)

example : ∃ msg, (do let tiny ← PhiTiny.build; piString (exampleEnv 60 true) tiny "10^38" 8) = .error (.thrown msg) := by
  obtain ⟨t, h1, h2⟩ := Calc.C40_sound (str := "10^38") (v := (10 ^ 38 : ℕ)) (by decide +kernel)
  have hf := (exampleEnv_valid 60 true).fp
  exact ⟨_, C55_too_large _ _ t _ 8 h1 h2 hf (by norm_num) (by norm_num)
    ((C43_limit _ _ hf (by norm_num) (by norm_num)).2.2.2 (by norm_num))⟩

/-- A text that shows the right low bits need not be the right number, but it is not arbitrary. -/
example : ShowsMod "129".toList (2 ^ 7) 1 ∧ ¬ ShowsMod "2".toList (2 ^ 7) 1 := by
  refine ⟨⟨129, by norm_num, Or.inl (by decide)⟩, ?_⟩
  rintro ⟨v, h1, h2 | h2⟩
  · rcases lt_or_ge v 0 with hv | hv
    · unfold decimal at h2
      rw [if_pos hv] at h2
      simp at h2
    · obtain ⟨n, rfl⟩ := Int.eq_ofNat_of_zero_le hv
      have h3 := I256.C38_read_back n
      rw [← h2] at h3
      have : n = 2 := by rw [← h3]; decide
      subst this
      norm_num at h1
  · simp at h2

end Main
end PS
