import Verif.Proof.PsvGen

/-!
# PrimeGenerator::fill
-/

namespace PS
namespace Psv

/-! ## The cached primes -/

theorem small_size : smallPrimes.size = 128 ∧ 719 ≤ primePi.size := by decide +kernel

theorem small_succ : ∀ j < 127, smallPrimes.get j < smallPrimes.get (j + 1) := by decide +kernel

/-- Trial division. -/
def smallTest (n : ℕ) : Bool := decide (2 ≤ n) && (List.range 27).all (fun d => d < 2 || n ≤ d || n % d != 0)

theorem smallTest_iff {n : ℕ} (h : n < 729) : smallTest n = true ↔ n.Prime := by
  unfold smallTest
  simp only [Bool.and_eq_true, decide_eq_true_iff, List.all_eq_true, List.mem_range, Bool.or_eq_true, bne_iff_ne]
  constructor
  · rintro ⟨h2, hall⟩
    by_contra hnp
    have hp := Nat.minFac_prime (n := n) (by omega)
    have hd := Nat.minFac_dvd n
    have hsq : n.minFac * n.minFac ≤ n := by
      have := Nat.minFac_sq_le_self (n := n) (by omega) hnp
      rwa [pow_two] at this
    have h3 := hp.two_le
    have h4 : n.minFac < 27 := by nlinarith
    rcases hall _ h4 with (h5 | h5) | h5
    · omega
    · nlinarith
    · exact h5 (Nat.mod_eq_zero_of_dvd hd)
  · intro hp
    refine ⟨hp.two_le, fun d hd => ?_⟩
    by_contra hc
    simp only [not_or, not_lt, not_le, not_not] at hc
    rcases (Nat.dvd_prime hp).1 (Nat.dvd_of_mod_eq_zero hc.2) with h1 | h1 <;> omega

theorem small_prime_fin : ∀ j < 128, smallTest (smallPrimes.get j) = true ∧ smallPrimes.get j ≤ 719 := by decide +kernel

theorem small_prime (j : ℕ) (hj : j < 128) : (smallPrimes.get j).Prime ∧ smallPrimes.get j ≤ 719 := by
  obtain ⟨h1, h2⟩ := small_prime_fin j hj
  exact ⟨(smallTest_iff (by omega)).1 h1, h2⟩

/-- The condition on one entry of `primePi`. -/
def piOK (x c : ℕ) : Bool := Nat.ble c 128 && (Nat.beq c 0 || Nat.ble (smallPrimes.get (c - 1)) x) &&
  (Nat.ble 128 c || Nat.blt x (smallPrimes.get c)) && (!smallTest x || (Nat.blt 0 c && Nat.beq (smallPrimes.get (c - 1)) x))

/-- The condition on a part of `primePi`, beginning at `x`. -/
def piAll : List ℕ → ℕ → Bool
  | [], _ => true
  | c :: l, x => piOK x c && piAll l (x + 1)

theorem piAll_get {l : List ℕ} {x : ℕ} (h : piAll l x = true) (j : ℕ) (hj : j < l.length) : piOK (x + j) l[j] = true := by
  induction l generalizing x j with
  | nil => simp at hj
  | cons c l ih =>
    unfold piAll at h
    rw [Bool.and_eq_true] at h
    cases j with
    | zero => exact h.1
    | succ j =>
      have := ih h.2 j (by simpa using hj)
      rw [show x + (j + 1) = x + 1 + j by omega]
      exact this

theorem pi_fin0 : piAll primePi.data.toList 0 = true := by decide +kernel

theorem pi_fin (x : ℕ) (hx : x < 719) : primePi.get x ≤ 128 ∧ (0 < primePi.get x → smallPrimes.get (primePi.get x - 1) ≤ x) ∧
    (primePi.get x < 128 → x < smallPrimes.get (primePi.get x)) ∧
    (x.Prime → 0 < primePi.get x ∧ smallPrimes.get (primePi.get x - 1) = x) := by
  have hsz : x < primePi.data.size := lt_of_lt_of_le hx small_size.2
  have h := piAll_get pi_fin0 x (by simpa using hsz)
  have hg : primePi.data.toList[x]'(by simpa using hsz) = primePi.get x := by
    unfold Vec.get
    rw [Array.getD_eq_getD_getElem?, Array.getElem?_eq_getElem hsz]
    rfl
  rw [hg, Nat.zero_add] at h
  unfold piOK at h
  simp only [Bool.and_eq_true, Bool.or_eq_true, Nat.ble_eq, Nat.blt_eq, Nat.beq_eq, Bool.not_eq_true'] at h
  obtain ⟨⟨⟨h1, h2⟩, h3⟩, h4⟩ := h
  refine ⟨h1, fun h => ?_, fun h => ?_, fun h => ?_⟩
  · rcases h2 with h2 | h2
    · omega
    · exact h2
  · rcases h3 with h3 | h3
    · omega
    · exact h3
  · rcases h4 with h4 | h4
    · rw [(smallTest_iff (by omega)).2 h] at h4
      cases h4
    · exact h4

theorem small_mono {i j : ℕ} (h : i < j) (hj : j < 128) : smallPrimes.get i < smallPrimes.get j := by
  induction j with
  | zero => omega
  | succ j ih =>
    have h1 := small_succ j (by omega)
    rcases Nat.lt_or_ge i j with h2 | h2
    · exact lt_trans (ih h2 (by omega)) h1
    · have : i = j := by omega
      subst this
      exact h1

theorem small_all {x : ℕ} (h : x.Prime) (hx : x < 720) : ∃ j < 128, smallPrimes.get j = x := by
  rcases Nat.lt_or_ge x 719 with h1 | h1
  · obtain ⟨p1, -, -, p4⟩ := pi_fin x h1
    obtain ⟨p5, p6⟩ := p4 h
    exact ⟨_, by omega, p6⟩
  · have : x = 719 := by omega
    subst this
    exact ⟨127, by norm_num, by decide +kernel⟩

theorem pi_idx {x j : ℕ} (hx : x < 719) (hj : j < 128) : j < primePi.get x ↔ smallPrimes.get j ≤ x := by
  obtain ⟨p1, p2, p3, -⟩ := pi_fin x hx
  constructor
  · intro h
    have h2 := p2 (by omega)
    rcases Nat.lt_or_ge j (primePi.get x - 1) with h3 | h3
    · have := small_mono h3 (by omega)
      omega
    · have : j = primePi.get x - 1 := by omega
      rw [this]
      exact h2
  · intro h
    by_contra hc
    have h2 := p3 (by omega)
    rcases Nat.lt_or_ge (primePi.get x) j with h3 | h3
    · have := small_mono h3 hj
      omega
    · have : j = primePi.get x := by omega
      rw [← this] at h2
      omega

theorem startIdx_ok {start : ℕ} (h : start ≤ 719) : ∃ a ≤ 128, getStartIdx start = .ok a ∧
    ∀ j < 128, (j < a ↔ smallPrimes.get j < start) := by
  unfold getStartIdx
  by_cases h1 : start > 1
  · rw [if_pos h1, Vec.rd_ok (by have := small_size.2; omega)]
    refine ⟨_, (pi_fin _ (by omega)).1, rfl, fun j hj => ?_⟩
    rw [pi_idx (by omega) hj]
    omega
  · rw [if_neg h1]
    refine ⟨0, by norm_num, rfl, fun j hj => ?_⟩
    have := (small_prime j hj).1.two_le
    omega

theorem stopIdx_ok (stop : ℕ) : ∃ b ≤ 128, getStopIdx stop = .ok b ∧
    ∀ j < 128, (j < b ↔ smallPrimes.get j ≤ stop) := by
  unfold getStopIdx
  rw [maxCached]
  simp only [ok_bind]
  by_cases h1 : stop < 719
  · rw [if_pos h1, Vec.rd_ok (by have := small_size.2; omega)]
    exact ⟨_, (pi_fin _ (by omega)).1, rfl, fun j hj => pi_idx h1 hj⟩
  · rw [if_neg h1]
    refine ⟨128, by norm_num, rfl, fun j hj => ?_⟩
    have := (small_prime j hj).2
    omega

/-- The numbers a generator for `[s, t]` has to deliver. -/
def GQ (s t n : ℕ) : Prop := s ≤ n ∧ n ≤ t ∧ n.Prime

theorem small_lst {s t i a b : ℕ} {w : Vec ℕ} (ha : ∀ j < 128, (j < a ↔ smallPrimes.get j < s))
    (hb : ∀ j < 128, (j < b ↔ smallPrimes.get j ≤ t)) (hab : a ≤ b) (hb128 : b ≤ 128) (hsz : i + (b - a) ≤ w.size)
    (hw : ∀ j < b - a, w.get (i + j) = smallPrimes.get (a + j)) :
    Lst w i (i + (b - a)) (s - 1) 720 (GQ s t) where
  le := by omega
  sz := hsz
  mem := fun j h1 h2 => by
    obtain ⟨d, rfl⟩ := Nat.exists_eq_add_of_le h1
    rw [hw d (by omega)]
    obtain ⟨p1, p2⟩ := small_prime (a + d) (by omega)
    have h3 : s ≤ smallPrimes.get (a + d) := by
      by_contra hc
      have := (ha (a + d) (by omega)).2 (by omega)
      omega
    have h4 := (hb (a + d) (by omega)).1 (by omega)
    have := p1.pos
    exact ⟨by omega, by omega, h3, h4, p1⟩
  mono := fun j l h1 h2 h3 => by
    obtain ⟨d, rfl⟩ := Nat.exists_eq_add_of_le h1
    obtain ⟨f, rfl⟩ := Nat.exists_eq_add_of_le (show i ≤ l by omega)
    rw [hw d (by omega), hw f (by omega)]
    exact small_mono (by omega) (by omega)
  all := fun x h1 h2 h3 => by
    obtain ⟨h4, h5, h6⟩ := h3
    obtain ⟨j, hj, rfl⟩ := small_all h6 h2
    have h7 : a ≤ j := by
      by_contra hc
      have := (ha j hj).1 (by omega)
      omega
    have h8 := (hb j hj).2 h5
    refine ⟨i + (j - a), by omega, by omega, ?_⟩
    rw [hw (j - a) (by omega)]
    congr 1
    omega

/-! ## The state of a generator in a stream -/

/-- A generator whose interval holds no number above the cached primes. -/
def GDead (g : PrimeGenerator) (t : ℕ) : Prop :=
  g.isInit = true ∧ g.er.stop = t ∧ g.er.segmentLow = max64 ∧ g.er.sieveSize = 0 ∧ t < 720

/-- An initialised generator for `[s, t]`, `s ≥ 720`, that has read the numbers below `b + 7`. -/
def GS (g : PrimeGenerator) (s t b : ℕ) : Prop :=
  (∃ e es, GInv g s t e es b) ∨ (t < b + 7 ∧ GDead g t)

theorem initErat_ok {env : Env} {start stop : ℕ} (hst : stop < 2 ^ 64) (hle : start ≤ stop) :
    Ok ((PrimeGenerator.make start stop).initErat env) (fun r => ∃ b, GS r (max 720 start) stop b ∧
      b + 7 ≤ max 720 start ∧ max 720 start ≤ b + 36 ∧ r.er.sieveSize ≤ r.sieveIdx) := by
  by_cases h : max 720 start ≤ stop
  · refine Ok.mono (G_initErat_ok hst h) (fun r hr => ?_)
    obtain ⟨e, es, b, h1, h2, h3, h4⟩ := hr
    exact ⟨b, .inl ⟨e, es, h1⟩, h2, h3, h4⟩
  · unfold PrimeGenerator.initErat PrimeGenerator.make
    rw [maxCached]
    simp only [ok_bind]
    rw [show 719 + 1 = 720 from rfl, if_neg h]
    refine Ok.pure ⟨713, .inr ⟨by omega, rfl, rfl, rfl, rfl, by omega⟩, by omega, by omega, Nat.zero_le _⟩

theorem initNext_ok {env : Env} {start stop : ℕ} (hst : stop < 2 ^ 64) (hle : start ≤ stop)
    {v : Vec ℕ} (hv : v.size = 256) :
    Ok ((PrimeGenerator.make start stop).initNext env v) (fun r =>
      Lst r.2.1 0 r.2.2 (start - 1) (max 720 start) (GQ start stop) ∧ r.2.1.size = 256 ∧ ∃ b, GS r.1 (max 720 start) stop b ∧
      b + 7 ≤ max 720 start ∧ max 720 start ≤ b + 36 ∧ r.1.er.sieveSize ≤ r.1.sieveIdx) := by
  unfold PrimeGenerator.initNext
  rw [maxCached]
  simp only [ok_bind]
  refine Ok.bind (P := fun r => Lst r.1 0 r.2 (start - 1) (max 720 start) (GQ start stop) ∧ r.1.size = 256)
    (Ok.ite (fun hc => ?_) (fun hc => ?_)) (fun r hr => ?_)
  · have hc : start ≤ 719 := hc
    obtain ⟨a, ha, ha1, ha2⟩ := startIdx_ok hc
    obtain ⟨b, hb, hb1, hb2⟩ := stopIdx_ok stop
    have hab : a ≤ b := by
      by_contra hlt
      have h1 := (ha2 b (by omega)).1 (by omega)
      have h2 := (hb2 b (by omega)).2 (by omega)
      omega
    show Ok (getStartIdx start >>= fun a => _) _
    rw [ha1]
    simp only [ok_bind]
    show Ok (getStopIdx stop >>= fun a => _) _
    rw [hb1]
    simp only [ok_bind]
    rw [csub_ok hab]
    simp only [ok_bind]
    refine Ok.bind (P := fun (w : Vec ℕ) => w.size = 256 ∧ ∀ j < b - a, w.get j = smallPrimes.get (a + j))
      (forUp_ok (Inv := fun k (w : Vec ℕ) => w.size = 256 ∧ ∀ j < k, w.get j = smallPrimes.get (a + j))
        ⟨hv, fun j hj => absurd hj (Nat.not_lt_zero _)⟩ (Nat.zero_le _) ?_) (fun w hw => Ok.pure ⟨?_, hw.1⟩)
    · rintro k w - hk ⟨h1, h2⟩
      rw [Vec.rd_ok (by rw [small_size.1]; omega)]
      simp only [ok_bind]
      rw [Vec.wr_ok (by omega)]
      refine ⟨_, rfl, by rw [Vec.size_set]; exact h1, fun j hj => ?_⟩
      rw [Vec.get_set]
      by_cases hkj : k = j
      · subst hkj
        rw [if_pos ⟨rfl, by omega⟩]
      · rw [if_neg (by omega)]
        exact h2 j (by omega)
    · have hm : max 720 start = 720 := by omega
      have := small_lst (i := 0) (w := w) ha2 hb2 hab hb (by omega) (fun j hj => by rw [Nat.zero_add]; exact hw.2 j hj)
      rw [Nat.zero_add] at this
      rw [hm]
      exact this
  · have hc : ¬ start ≤ 719 := hc
    refine Ok.pure ⟨⟨le_refl _, Nat.zero_le _, fun j h1 h2 => ?_, fun j l h1 h2 h3 => ?_, fun x h1 h2 h3 => ?_⟩, hv⟩
    · exact absurd h2 (Nat.not_lt_zero _)
    · exact absurd h3 (Nat.not_lt_zero _)
    · have := h3.1
      omega
  · refine Ok.bind (initErat_ok hst hle) (fun g hg => Ok.pure ⟨hr.1, hr.2, hg⟩)

/-! ## fill for next_prime -/

/-- A generator for `[start, t]` that has delivered the numbers below `B`. -/
def FS (g : PrimeGenerator) (start t B : ℕ) : Prop :=
  ∃ b, GS g (max 720 start) t b ∧ b + 7 ≤ B ∧ B ≤ max (b + 7) (max 720 start) ∧ max 720 start ≤ B ∧ max 720 start ≤ b + 36

theorem GS.stop {g : PrimeGenerator} {s t b : ℕ} (h : GS g s t b) : g.er.stop = t ∧ t < 2 ^ 64 ∧ g.isInit = true := by
  rcases h with ⟨e, es, h⟩ | ⟨h1, h2, h3, -, -, h4⟩
  · exact ⟨h.stop, h.stopLt, h.init⟩
  · exact ⟨h3, by omega, h2⟩

/-- When there is no further segment, nothing is left. -/
theorem GS.ended {g : PrimeGenerator} {s t b : ℕ} (h : GS g s t b) (hsi : g.er.sieveSize ≤ g.sieveIdx)
    (hn : g.er.hasNextSegment = false) : t < b + 7 := by
  unfold Erat.hasNextSegment at hn
  rw [decide_eq_false_iff_not] at hn
  rcases h with ⟨e, es, h⟩ | ⟨h1, -⟩
  · have hst := h.stop
    rcases h.pos with ⟨h1, -⟩ | ⟨-, ⟨h1, h2⟩ | ⟨h1, h2⟩⟩
    · omega
    · have := h1.lowStop
      omega
    · omega
  · exact h1

theorem GS.segment {env : Env} {g : PrimeGenerator} {s t b : ℕ} (h : GS g s t b) (hsi : g.er.sieveSize ≤ g.sieveIdx)
    (hn : g.er.hasNextSegment = true) :
    Ok (g.sieveSegment env) (fun r => (∃ e es, GInv r s t e es b) ∧ r.sieveIdx < r.er.sieveSize ∧ b + 7 ≤ t) := by
  rcases h with ⟨e, es, h⟩ | ⟨h1, h2, h3, h4, h5, h6⟩
  · exact Ok.mono (G_sieveSegment_ok h hsi hn) (fun r hr => ⟨⟨e, es, hr.1⟩, hr.2⟩)
  · unfold Erat.hasNextSegment at hn
    rw [decide_eq_true_iff, h4, h3, max64_eq] at hn
    omega

/-- The result of one call of `fill`. -/
def FillRes (start t c : ℕ) (r : PrimeGenerator × Vec ℕ × ℕ) : Prop :=
  r.2.1.size = 256 ∧
  ((0 < r.2.2 ∧ ∃ B, Lst r.2.1 0 r.2.2 c B (GQ start t) ∧ FS r.1 start t B) ∨
   (r.2.2 = 0 ∧ t ≠ max64 ∧ ∀ x, c < x → ¬ GQ start t x) ∨
   (r.2.2 = 1 ∧ r.2.1.get 0 = max64 ∧ t = max64 ∧ (∀ x, c < x → ¬ GQ start t x) ∧ ∃ B, c < B ∧ FS r.1 start t B))

/-- The part of `sieveSegmentNext` after initialisation. -/
theorem segNext_rest {env : Env} {g : PrimeGenerator} {v : Vec ℕ} {start t b B c : ℕ}
    (hg : GS g (max 720 start) t b) (hB : b + 7 ≤ B ∧ B ≤ max (b + 7) (max 720 start) ∧ max 720 start ≤ B ∧ max 720 start ≤ b + 36)
    (hcB : c < B) (hno : ∀ x, c < x → x < B → ¬ GQ start t x) (hv : v.size = 256) (hsi : g.er.sieveSize ≤ g.sieveIdx)
    {f : Bool × PrimeGenerator × Vec ℕ × ℕ → M (Step (PrimeGenerator × Vec ℕ) (PrimeGenerator × Vec ℕ × ℕ))}
    {P : Step (PrimeGenerator × Vec ℕ) (PrimeGenerator × Vec ℕ × ℕ) → Prop}
    (h1 : ∀ g', (∃ e es, GInv g' (max 720 start) t e es b) → g'.sieveIdx < g'.er.sieveSize → Ok (f (true, g', v, 0)) P)
    (h2 : ∀ r, FillRes start t c r → Ok (f (false, r)) P) :
    Ok ((if g.er.hasNextSegment then do
        let g ← g.sieveSegment env
        pure (true, g, (v, 0))
      else if g.er.stop ≥ max64 then do
        let primes ← v.wr 0 max64
        pure (false, g, primes, 1)
      else pure (false, (g, v, 0)) : M (Bool × PrimeGenerator × Vec ℕ × ℕ)) >>= f) P := by
  obtain ⟨hst, htl, -⟩ := hg.stop
  have hend : g.er.hasNextSegment = false → ∀ x, c < x → ¬ GQ start t x := by
    intro hn x hx hQ
    have := hg.ended hsi hn
    rcases Nat.lt_or_ge x B with h3 | h3
    · exact hno x hx h3 hQ
    · have := hQ.2.1
      omega
  by_cases hn : g.er.hasNextSegment = true
  · rw [if_pos hn]
    simp only [bind_assoc]
    refine Ok.bind (hg.segment hsi hn) (fun g' hg' => ?_)
    rw [pure_eq_ok, ok_bind]
    exact h1 g' hg'.1 hg'.2.1
  · rw [if_neg hn]
    have hend := hend (by simpa using hn)
    by_cases hm : g.er.stop ≥ max64
    · rw [if_pos hm, Vec.wr_ok (by omega)]
      simp only [ok_bind]
      rw [pure_eq_ok, ok_bind]
      have htm : t = max64 := by rw [max64_eq] at hm ⊢; omega
      refine h2 _ ⟨by dsimp only; rw [Vec.size_set]; exact hv, .inr (.inr ⟨rfl, ?_, htm, hend, B, hcB, b, hg, hB⟩)⟩
      dsimp only
      rw [Vec.get_set, if_pos ⟨rfl, by omega⟩]
    · rw [if_neg hm, pure_eq_ok, ok_bind]
      exact h2 _ ⟨hv, .inr (.inl ⟨rfl, by omega, hend⟩)⟩

/-- The part of the loop of `fillNext` that reads bytes. -/
theorem fill_bytes {env : Env} {g : PrimeGenerator} {v : Vec ℕ} {start t e es b B c : ℕ}
    (hg : GInv g (max 720 start) t e es b) (hB : b + 7 ≤ B ∧ B ≤ max (b + 7) (max 720 start) ∧ max 720 start ≤ B ∧ max 720 start ≤ b + 36)
    (hcB : c < B) (hno : ∀ x, c < x → x < B → ¬ GQ start t x) (hv : v.size = 256) (hsi : g.sieveIdx < g.er.sieveSize) :
    Ok (do
      let f ← fillLoop env g.er.sieve g.er.sieveSize v.size ⟨0, g.low, g.sieveIdx, v⟩
      let g := { g with low := f.low, sieveIdx := f.sieveIdx }
      if f.num = 0 then pure (.next (g, f.primes)) else pure (.done (g, f.primes, f.num)) :
        M (Step (PrimeGenerator × Vec ℕ) (PrimeGenerator × Vec ℕ × ℕ)))
      (fun r => match r with
        | .next s => b + 7 ≤ t ∧ s.2.size = 256 ∧ ∃ b', b + 240 ≤ b' ∧ (GS s.1 (max 720 start) t b') ∧
            ∀ x, c < x → x < b' + 7 → ¬ GQ start t x
        | .done r => FillRes start t c r) := by
  obtain ⟨p1, p2, L, p3, p4, p5⟩ := hg.pos.live hsi
  have hst := hg.stop
  have hstart := hg.start
  have htl := hg.stopLt
  have hlow : g.low = u64 (L + 30 * g.sieveIdx) := by rw [hg.low hsi, p3]
  rw [hlow]
  refine Ok.bind (fillLoop_ok env p4 p5 (by omega) hsi p1 (Q := GQ (max 720 start) t) (c := c) (fun n hn => ?_)
    (fun x h1 h2 => ?_) (fun x h1 h2 h3 => ?_) (by omega)) (fun f hf => ?_)
  · unfold GQ
    rw [hst, hstart]
  · have := h2.1
    omega
  · have := h3.1
    exact hno x h1 (by omega) ⟨by omega, h3.2⟩
  · obtain ⟨b', f1, f2, f3, f4, f5⟩ := hf
    have hg' : GS { g with low := f.low, sieveIdx := f.sieveIdx } (max 720 start) t b' :=
      .inl ⟨e, es, ⟨hg.init, hg.start, hg.stop, hg.stopLt, hg.pre, hg.mpre, fun _ => f2, hg.sp, f3⟩⟩
    have f4' : Lst f.primes 0 f.num c (b' + 7) (GQ start t) := f4.congrQ (fun x h1 h2 => by
      constructor
      · rintro ⟨h3, h4⟩
        exact ⟨by omega, h4⟩
      · intro h3
        refine ⟨?_, h3.2⟩
        by_contra hc
        exact hno x h1 (by omega) h3)
    refine Ok.ite (fun hc => ?_) (fun hc => ?_)
    · refine Ok.pure ⟨by omega, by dsimp only; omega, b', by omega, hg', fun x h1 h2 h3 => ?_⟩
      obtain ⟨j, hj⟩ := f4'.all x h1 h2 h3
      omega
    · refine Ok.pure ⟨by dsimp only; omega, .inl ⟨by dsimp only; omega, b' + 7, f4', b', hg', by omega, by omega, by omega, by omega⟩⟩

/-- One pass of the loop of `fill`. -/
def fillBody (env : Env) (s : PrimeGenerator × Vec ℕ) : M (Step (PrimeGenerator × Vec ℕ) (PrimeGenerator × Vec ℕ × ℕ)) := do
  let r ← (if s.1.sieveIdx ≥ s.1.er.sieveSize then s.1.sieveSegmentNext env s.2
    else pure (true, s.1, s.2, 0))
  if r.1 then do
    let g := r.2.1
    let f ← fillLoop env g.er.sieve g.er.sieveSize r.2.2.1.size ⟨0, g.low, g.sieveIdx, r.2.2.1⟩
    let g := { g with low := f.low, sieveIdx := f.sieveIdx }
    if f.num = 0 then pure (.next (g, f.primes)) else pure (.done (g, f.primes, f.num))
  else pure (.done r.2)

theorem fillNext_eq (env : Env) (g : PrimeGenerator) (v : Vec ℕ) :
    g.fillNext env v = loop (g.er.stop + 3) (g, v) (fillBody env) := rfl

/-- State of the loop of `fill` with cursor `c`. -/
def FillInv (start t c b : ℕ) (s : PrimeGenerator × Vec ℕ) : Prop :=
  GS s.1 (max 720 start) t b ∧ s.2.size = 256 ∧ ∃ B,
    (b + 7 ≤ B ∧ B ≤ max (b + 7) (max 720 start) ∧ max 720 start ≤ B ∧ max 720 start ≤ b + 36) ∧ c < B ∧
    (∀ x, c < x → x < B → ¬ GQ start t x)

theorem fill_bytes' {env : Env} {g : PrimeGenerator} {v : Vec ℕ} {start t b B c : ℕ}
    (hg : ∃ e es, GInv g (max 720 start) t e es b) (hB : b + 7 ≤ B ∧ B ≤ max (b + 7) (max 720 start) ∧ max 720 start ≤ B ∧ max 720 start ≤ b + 36)
    (hcB : c < B) (hno : ∀ x, c < x → x < B → ¬ GQ start t x) (hv : v.size = 256) (hsi : g.sieveIdx < g.er.sieveSize) :
    Ok (do
      let f ← fillLoop env g.er.sieve g.er.sieveSize v.size ⟨0, g.low, g.sieveIdx, v⟩
      let g := { g with low := f.low, sieveIdx := f.sieveIdx }
      if f.num = 0 then pure (.next (g, f.primes)) else pure (.done (g, f.primes, f.num)) :
        M (Step (PrimeGenerator × Vec ℕ) (PrimeGenerator × Vec ℕ × ℕ)))
      (fun r => match r with
        | .next s => b + 7 ≤ t ∧ ∃ b', b + 240 ≤ b' ∧ FillInv start t c b' s
        | .done r => FillRes start t c r) := by
  obtain ⟨e, es, hg⟩ := hg
  refine Ok.mono (fill_bytes hg hB hcB hno hv hsi) (fun r hr => ?_)
  cases r with
  | next s =>
    obtain ⟨q1, q2, b', q3, q4, q5⟩ := hr
    exact ⟨q1, b', q3, q4, q2, b' + 7, ⟨le_refl _, by omega, by omega, by omega⟩, by omega, q5⟩
  | done r => exact hr

theorem fillBody_ok {env : Env} {s : PrimeGenerator × Vec ℕ} {start t b c : ℕ} (h : FillInv start t c b s) :
    Ok (fillBody env s) (fun r => match r with
        | .next s => b + 7 ≤ t ∧ ∃ b', b + 240 ≤ b' ∧ FillInv start t c b' s
        | .done r => FillRes start t c r) := by
  obtain ⟨g, v⟩ := s
  obtain ⟨hgs, hv, B, hB, hcB, hno⟩ := h
  dsimp only at hgs hv
  obtain ⟨hst, htl, hin⟩ := hgs.stop
  unfold fillBody
  dsimp only
  by_cases hsi : g.sieveIdx ≥ g.er.sieveSize
  · rw [if_pos hsi]
    unfold PrimeGenerator.sieveSegmentNext
    rw [if_pos hin, pure_eq_ok, ok_bind]
    rw [if_neg (by norm_num)]
    refine segNext_rest hgs hB hcB hno hv hsi (fun g' hg' hsi' => ?_) (fun r hr => ?_)
    · rw [if_pos rfl]
      exact fill_bytes' hg' hB hcB hno hv hsi'
    · rw [if_neg (by simp)]
      exact Ok.pure hr
  · rw [if_neg hsi, pure_eq_ok, ok_bind, if_pos rfl]
    have hgi : ∃ e es, GInv g (max 720 start) t e es b := by
      rcases hgs with h1 | ⟨-, h1⟩
      · exact h1
      · have := h1.2.2.2.1
        omega
    have hlt : g.sieveIdx < g.er.sieveSize := by omega
    exact fill_bytes' hgi hB hcB hno hv hlt

theorem fill_loop {env : Env} {s : PrimeGenerator × Vec ℕ} {start t b c fuel : ℕ} (h : FillInv start t c b s)
    (hf : t + 1 < fuel) : Ok (loop fuel s (fillBody env)) (FillRes start t c) := by
  refine loop_okm (Inv := fun n s => ∃ b, n = t + 1 - b ∧ FillInv start t c b s) _ (t + 1 - b) ⟨b, rfl, h⟩ (by omega) ?_
  rintro n s ⟨b, hn, hs⟩
  refine Ok.mono (fillBody_ok hs) (fun r hr => ?_)
  cases r with
  | next s =>
    obtain ⟨q1, b', q3, q4⟩ := hr
    exact ⟨t + 1 - b', by omega, b', rfl, q4⟩
  | done r => exact hr

/-- **fill for next_prime**, of an initialised generator. -/
theorem fillNext_ok {env : Env} {g : PrimeGenerator} {v : Vec ℕ} {start t B c : ℕ} (hg : FS g start t B) (hcB : c < B)
    (hno : ∀ x, c < x → x < B → ¬ GQ start t x) (hv : v.size = 256) :
    Ok (g.fillNext env v) (FillRes start t c) := by
  obtain ⟨b, hgs, hB⟩ := hg
  rw [fillNext_eq, hgs.stop.1]
  exact fill_loop ⟨hgs, hv, B, hB, hcB, hno⟩ (by omega)

/-- **fill for next_prime**, first call. -/
theorem fillNext_fresh {env : Env} {v : Vec ℕ} {start t : ℕ} (hst : t < 2 ^ 64) (hle : start ≤ t)
    (hv : v.size = 256) : Ok ((PrimeGenerator.make start t).fillNext env v) (FillRes start t (start - 1)) := by
  rw [fillNext_eq]
  show Ok (loop (t + 2 + 1) _ _) _
  unfold loop
  refine Ok.bind (P := fun r => match r with
        | .next s => ∃ b, FillInv start t (start - 1) b s
        | .done r => FillRes start t (start - 1) r) ?_ (fun r hr => ?_)
  · unfold fillBody
    dsimp only
    rw [if_pos (show (PrimeGenerator.make start t).sieveIdx ≥ (PrimeGenerator.make start t).er.sieveSize from Nat.zero_le _)]
    unfold PrimeGenerator.sieveSegmentNext
    rw [if_neg (show ¬ ((PrimeGenerator.make start t).isInit = true) from Bool.false_ne_true)]
    simp only [bind_assoc]
    refine Ok.bind (initNext_ok hst hle hv) (fun r hr => ?_)
    obtain ⟨g, w, n⟩ := r
    obtain ⟨hL, hw, b, hgs, hb1, hb2, hsi⟩ := hr
    dsimp only at hL hw hgs hsi ⊢
    have hB : b + 7 ≤ max 720 start ∧ max 720 start ≤ max (b + 7) (max 720 start) ∧ max 720 start ≤ max 720 start ∧
      max 720 start ≤ b + 36 := ⟨hb1, by omega, le_refl _, hb2⟩
    by_cases hn : n > 0
    · rw [if_pos hn, pure_eq_ok, ok_bind, if_neg (by simp)]
      exact Ok.pure ⟨hw, .inl ⟨hn, _, hL, b, hgs, hB⟩⟩
    · rw [if_neg hn]
      have h0 : n = 0 := by omega
      subst h0
      have hno : ∀ x, start - 1 < x → x < max 720 start → ¬ GQ start t x := fun x h1 h2 h3 => by
        obtain ⟨j, hj⟩ := hL.all x h1 h2 h3
        omega
      refine segNext_rest hgs hB (by omega) hno hw hsi (fun g' hg' hsi' => ?_) (fun r hr => ?_)
      · rw [if_pos rfl]
        refine Ok.mono (fill_bytes' hg' hB (by omega) hno hw hsi') (fun r hr => ?_)
        cases r with
        | next s =>
          obtain ⟨-, b', -, q⟩ := hr
          exact ⟨b', q⟩
        | done r => exact hr
      · rw [if_neg (by simp)]
        exact Ok.pure hr
  · cases r with
    | next s =>
      obtain ⟨b, hb⟩ := hr
      exact fill_loop hb (by omega)
    | done r => exact Ok.pure hr

/-! ## fill for prev_prime -/

theorem drain_ok {env : Env} {g : PrimeGenerator} {v : Vec ℕ} {s t b i c : ℕ} (hg : ∃ e es, GInv g s t e es b)
    (hsi : g.sieveIdx < g.er.sieveSize) (hc : c < s) (hL : Lst v i v.size c (b + 7) (GQ s t)) :
    Ok (g.drain env v) (fun r => ∃ b', b + 240 ≤ b' ∧ (∃ e es, GInv r.1 s t e es b') ∧ r.1.er.sieveSize ≤ r.1.sieveIdx ∧
      Lst r.2 i r.2.size c (b' + 7) (GQ s t) ∧ v.size ≤ r.2.size ∧ ∀ j < v.size, r.2.get j = v.get j) := by
  obtain ⟨e, es, hg⟩ := hg
  unfold PrimeGenerator.drain
  refine loop_okm (Inv := fun n (x : PrimeGenerator × Vec ℕ) => ∃ b', n = x.1.er.sieveSize - x.1.sieveIdx ∧ GInv x.1 s t e es b' ∧
    Lst x.2 i x.2.size c (b' + 7) (GQ s t) ∧ v.size ≤ x.2.size ∧ (∀ j < v.size, x.2.get j = v.get j) ∧
    (b + 240 ≤ b' ∨ (b' = b ∧ x.1.sieveIdx < x.1.er.sieveSize))) _ _ ⟨b, rfl, hg, hL, le_refl _, fun _ _ => rfl, .inr ⟨rfl, hsi⟩⟩
    (show g.er.sieveSize - g.sieveIdx < _ by omega) ?_
  rintro n ⟨g, w⟩ ⟨b', hn, hg, hL, hsz, hold, hb⟩
  dsimp only at hn hg hL hsz hold hb ⊢
  refine Ok.ite (fun hc' => ?_) (fun hc' => ?_)
  · obtain ⟨p1, p2, L, p3, p4, p5⟩ := hg.pos.live hc'
    have hst := hg.stop
    have hstart := hg.start
    have htl := hg.stopLt
    have hroom := p4.room
    have hlow : g.low = u64 (L + 30 * g.sieveIdx) := by rw [hg.low hc', p3]
    refine Ok.bind (littleEndian_ok (by omega)) (fun bits hbits => ?_)
    have hw := p4.word (Q := GQ s t) (by omega) hc' p1 (fun n hn => by unfold GQ; rw [hst, hstart]) hbits
    rw [hlow]
    rw [p3] at hL
    refine Ok.bind (pushBits_ok env hw (fun x _ hx => by have := hx.1; omega) hL) (fun w' hw' => Ok.pure ?_)
    obtain ⟨w1, w2, w3⟩ := hw'
    refine ⟨g.er.sieveSize - (g.sieveIdx + 8), by omega, L + 30 * g.sieveIdx + 240, rfl, ⟨hg.init, hg.start, hg.stop, hg.stopLt, hg.pre, hg.mpre,
      fun _ => by dsimp only; rw [u64_add], hg.sp, Pos.advance p4 p5 hc' p1⟩, w1, by dsimp only; omega, fun j hj => ?_, .inl (by omega)⟩
    dsimp only
    rw [w3 j (by omega)]
    exact hold j hj
  · refine Ok.pure ⟨b', ?_, ⟨e, es, hg⟩, by dsimp only; omega, hL, hsz, hold⟩
    rcases hb with h1 | ⟨h1, h2⟩
    · exact h1
    · omega

theorem initPrev_ok {env : Env} {start stop : ℕ} (hst : stop < 2 ^ 64) (hle : start ≤ stop)
    {v : Vec ℕ} :
    Ok ((PrimeGenerator.make start stop).initPrev env v) (fun r =>
      Lst r.2 v.size r.2.size (start - 1) (max 720 start) (GQ start stop) ∧ (∀ j < v.size, r.2.get j = v.get j) ∧
      ∃ b, GS r.1 (max 720 start) stop b ∧
      b + 7 ≤ max 720 start ∧ max 720 start ≤ b + 36 ∧ r.1.er.sieveSize ≤ r.1.sieveIdx) := by
  unfold PrimeGenerator.initPrev
  rw [maxCached]
  simp only [ok_bind]
  refine Ok.bind (P := fun (r : Vec ℕ) => Lst r v.size r.size (start - 1) (max 720 start) (GQ start stop) ∧ ∀ j < v.size, r.get j = v.get j)
    (Ok.ite (fun hc => ?_) (fun hc => ?_)) (fun r hr => ?_)
  · have hc : start ≤ 719 := hc
    obtain ⟨a, ha, ha1, ha2⟩ := startIdx_ok hc
    obtain ⟨b, hb, hb1, hb2⟩ := stopIdx_ok stop
    have hab : a ≤ b := by
      by_contra hlt
      have h1 := (ha2 b (by omega)).1 (by omega)
      have h2 := (hb2 b (by omega)).2 (by omega)
      omega
    show Ok (getStartIdx start >>= fun a => _) _
    rw [ha1]
    simp only [ok_bind]
    show Ok (getStopIdx stop >>= fun a => _) _
    rw [hb1]
    simp only [ok_bind]
    refine Ok.mono (P := fun (w : Vec ℕ) => w.size = v.size + (b - a) ∧ (∀ j < v.size, w.get j = v.get j) ∧
        ∀ j < b - a, w.get (v.size + j) = smallPrimes.get (a + j))
      (forUp_ok (Inv := fun k (w : Vec ℕ) => w.size = v.size + (k - a) ∧ (∀ j < v.size, w.get j = v.get j) ∧
        ∀ j < k - a, w.get (v.size + j) = smallPrimes.get (a + j))
        ⟨by omega, fun _ _ => rfl, fun j hj => by omega⟩ hab ?_) (fun w hw => ⟨?_, hw.2.1⟩)
    · rintro k w hk1 hk ⟨h1, h2, h3⟩
      rw [Vec.rd_ok (by rw [small_size.1]; omega)]
      simp only [ok_bind]
      refine ⟨_, rfl, by rw [Vec.size_push]; omega, fun j hj => ?_, fun j hj => ?_⟩
      · rw [Vec.get_push, if_neg (by omega)]
        exact h2 j hj
      · rw [Vec.get_push]
        by_cases hjk : j = k - a
        · have hk' : a + j = k := by omega
          rw [if_pos (by omega), hk']
        · rw [if_neg (by omega)]
          exact h3 j (by omega)
    · have hm : max 720 start = 720 := by omega
      have := small_lst (i := v.size) (w := w) ha2 hb2 hab hb (by omega) hw.2.2
      rw [hm, hw.1]
      exact this
  · have hc : ¬ start ≤ 719 := hc
    refine Ok.pure ⟨⟨le_refl _, le_refl _, fun j h1 h2 => ?_, fun j l h1 h2 h3 => ?_, fun x h1 h2 h3 => ?_⟩, fun _ _ => rfl⟩
    · omega
    · omega
    · have := h3.1
      omega
  · refine Ok.bind (initErat_ok hst hle) (fun g hg => Ok.pure ⟨hr.1, hr.2, hg⟩)

/-- State of the loop of `fill` for `prev_prime`. -/
def PrevInv (start t b : ℕ) (v : Vec ℕ) (s : PrimeGenerator × Vec ℕ) : Prop :=
  GS s.1 (max 720 start) t b ∧ s.1.er.sieveSize ≤ s.1.sieveIdx ∧
  ∃ w, Lst w v.size w.size (start - 1) (max 720 start) (GQ start t) ∧ w.size ≤ s.2.size ∧
    (∀ j < w.size, s.2.get j = w.get j) ∧ (∀ j < v.size, w.get j = v.get j) ∧
    Lst s.2 w.size s.2.size (max 720 start - 1) (b + 7) (GQ (max 720 start) t)

/-- **fill for prev_prime**: the primes of `[start, t]` are appended. -/
theorem fillPrev_ok {env : Env} {v : Vec ℕ} {start t : ℕ} (hst : t < 2 ^ 64) (hle : start ≤ t) :
    Ok ((PrimeGenerator.make start t).fillPrev env v) (fun r =>
      Lst r.2 v.size r.2.size (start - 1) (t + 1) (GQ start t) ∧ ∀ j < v.size, r.2.get j = v.get j) := by
  have hstep : ∀ (s : PrimeGenerator × Vec ℕ) (b : ℕ), PrevInv start t b v s →
      Ok (do
        if s.1.er.hasNextSegment then do
          let g ← s.1.sieveSegment env
          pure (true, g, s.2)
        else pure (false, s) : M (Bool × PrimeGenerator × Vec ℕ))
      (fun r => (r.1 = true ∧ b + 7 ≤ t ∧ r.2.1.sieveIdx < r.2.1.er.sieveSize ∧ (∃ e es, GInv r.2.1 (max 720 start) t e es b) ∧ r.2.2 = s.2) ∨
        (r.1 = false ∧ t < b + 7 ∧ r.2 = s)) := by
    rintro s b ⟨h1, h2, -⟩
    refine Ok.ite (fun hn => ?_) (fun hn => ?_)
    · refine Ok.bind (h1.segment h2 hn) (fun g hg => Ok.pure (.inl ⟨rfl, hg.2.2, hg.2.1, hg.1, rfl⟩))
    · exact Ok.pure (.inr ⟨rfl, h1.ended h2 (by simpa using hn), rfl⟩)
  unfold PrimeGenerator.fillPrev
  refine loop_okm (Inv := fun n (s : PrimeGenerator × Vec ℕ) => (s = (PrimeGenerator.make start t, v) ∧ n = t + 2) ∨
      ∃ b, n = t + 1 - b ∧ PrevInv start t b v s) _ (t + 2) (.inl ⟨rfl, rfl⟩) (show t + 2 < t + 3 by omega) ?_
  rintro n s hs
  unfold PrimeGenerator.sieveSegmentPrev
  simp only [bind_assoc]
  refine Ok.bind (P := fun s' => ∃ b, PrevInv start t b v s' ∧ t + 1 - b ≤ n) ?_ (fun s' hs' => ?_)
  · rcases hs with ⟨rfl, rfl⟩ | ⟨b, hn, hs⟩
    · rw [if_neg (show ¬ ((PrimeGenerator.make start t).isInit = true) from Bool.false_ne_true)]
      refine Ok.mono (initPrev_ok hst hle) (fun r hr => ?_)
      obtain ⟨r1, r2, b, r3, r4, r5, r6⟩ := hr
      exact ⟨b, ⟨r3, r6, r.2, r1, le_refl _, fun _ _ => rfl, r2, ⟨le_refl _, le_refl _, fun j h1 h2 => by omega, fun j l h1 h2 h3 => by omega,
        fun x h1 h2 h3 => by omega⟩⟩, by omega⟩
    · rw [if_pos hs.1.stop.2.2]
      exact Ok.pure ⟨b, hs, by omega⟩
  · obtain ⟨b, hI, hbn⟩ := hs'
    refine Ok.bind (hstep s' b hI) (fun r hr => ?_)
    obtain ⟨i1, i2, w, i4, i5, i6, i7, i8⟩ := hI
    rcases hr with ⟨q1, q2, q3, q4, q5⟩ | ⟨q1, q2, q3⟩
    · rw [if_pos q1]
      rw [← q5] at i8 i5 i6
      refine Ok.bind (drain_ok q4 q3 (by omega) i8) (fun r' hr' => Ok.pure ?_)
      obtain ⟨b', d1, d2, d3, d4, d5, d6⟩ := hr'
      refine ⟨t + 1 - b', by omega, .inr ⟨b', rfl, .inl d2, d3, w, i4, by omega, fun j hj => ?_, i7, d4⟩⟩
      · rw [d6 j (by omega)]
        exact i6 j hj
    · rw [if_neg (by rw [q1]; simp), q3]
      refine Ok.pure ⟨?_, fun j hj => ?_⟩
      · have hcov : Lst s'.2 v.size s'.2.size (start - 1) (max (b + 7) (max 720 start)) (GQ start t) := by
          rcases Nat.lt_or_ge (b + 7) (max 720 start) with hb | hb
          · have hsz : s'.2.size = w.size := by
              by_contra hne
              have := i8.mem w.size (le_refl _) (by omega)
              omega
            rw [hsz, max_eq_right hb.le]
            exact ⟨i4.le, by omega, fun j h1 h2 => by rw [i6 j h2]; exact i4.mem j h1 h2, fun j l h1 h2 h3 => by
              rw [i6 j (by omega), i6 l h3]; exact i4.mono j l h1 h2 h3, fun x h1 h2 h3 => by
              obtain ⟨j, j1, j2, j3⟩ := i4.all x h1 h2 h3
              exact ⟨j, j1, j2, by rw [i6 j j2]; exact j3⟩⟩
          · rw [max_eq_left hb]
            have h720 : max 720 start = (max 720 start - 1) + 1 := by omega
            have i8' : Lst s'.2 w.size s'.2.size (max 720 start - 1) (b + 7) (GQ start t) :=
              i8.congrQ (fun x h1 h2 => by unfold GQ; constructor <;> rintro ⟨h3, h4, h5⟩ <;> exact ⟨by omega, h4, h5⟩)
            rw [h720] at i4
            exact i4.append i8' (by omega) (by omega) i6
        have h2 : t + 1 ≤ max (b + 7) (max 720 start) := by omega
        exact ⟨hcov.le, hcov.sz, fun j h1 h2 => ⟨(hcov.mem j h1 h2).1, Nat.lt_succ_of_le (hcov.mem j h1 h2).2.2.2.1, (hcov.mem j h1 h2).2.2⟩,
          hcov.mono, fun x h1 h2 h3 => hcov.all x h1 (by omega) h3⟩
      · rw [i6 j (by have := i4.le; omega)]
        exact i7 j hj

end Psv
end PS
