import Verif.Proof.PsvBits

/-!
# The stream of primes of a sieve, and the sieving primes
-/

namespace PS
namespace Psv

/-- The sieve is at byte `si`; the next number to be read is `b + 7`. -/
def Pos (er : Erat) (e b si : ℕ) (D : ℕ → Prop) : Prop :=
  (si < er.sieveSize ∧ si % 8 = 0 ∧ ∃ L, b = L + 30 * si ∧ Seg er L ∧ Nxt er e (L + 30 * er.sieveSize) D) ∨
  (er.sieveSize ≤ si ∧ Nxt er e b D)

theorem Pos.advance {er : Erat} {e L si : ℕ} {D : ℕ → Prop} (h : Seg er L) (hn : Nxt er e (L + 30 * er.sieveSize) D)
    (hsi : si < er.sieveSize) (h8 : si % 8 = 0) : Pos er e (L + 30 * si + 240) (si + 8) D := by
  rcases Nat.lt_or_ge (si + 8) er.sieveSize with h1 | h1
  · exact .inl ⟨h1, by omega, L, by ring, h, hn⟩
  · refine .inr ⟨h1, ?_⟩
    rcases h.full with h2 | h2
    · have : er.sieveSize = si + 8 := by omega
      rw [this] at hn
      have h3 : L + 30 * si + 240 = L + 30 * (si + 8) := by ring
      rw [h3]
      exact hn
    · rcases hn with ⟨h3, h4⟩ | ⟨h3, h4⟩
      · have := h3.lowStop
        omega
      · exact .inr ⟨h3, by omega⟩

theorem u64_add {b x : ℕ} : u64 (u64 b + x) = u64 (b + x) := by
  unfold u64
  omega

theorem fillLoop_ok (env : Env) {er : Erat} {e L si c : ℕ} {D Q : ℕ → Prop} {v : Vec ℕ} (h : Seg er L)
    (hn : Nxt er e (L + 30 * er.sieveSize) D) (hst : er.stop < 2 ^ 64) (hsi : si < er.sieveSize) (h8 : si % 8 = 0)
    (hQ : ∀ n, L + 30 * si + 7 ≤ n → (Q n ↔ er.start ≤ n ∧ n ≤ er.stop ∧ n.Prime)) (hc : ∀ x, L + 30 * si + 7 ≤ x → Q x → c < x)
    (hno : ∀ x, c < x → x < L + 30 * si + 7 → ¬ Q x) (hv : 64 ≤ v.size) :
    Ok (fillLoop env er.sieve er.sieveSize v.size ⟨0, u64 (L + 30 * si), si, v⟩) (fun f => ∃ b',
      L + 30 * si + 240 ≤ b' ∧ f.low = u64 b' ∧ Pos er e b' f.sieveIdx D ∧ Lst f.primes 0 f.num c (b' + 7) Q ∧
      f.primes.size = v.size) := by
  unfold fillLoop
  refine loop_okm (Inv := fun n (s : Fill) => n + s.sieveIdx = er.sieveSize ∧ s.sieveIdx < er.sieveSize ∧ s.sieveIdx % 8 = 0 ∧
    si ≤ s.sieveIdx ∧ s.low = u64 (L + 30 * s.sieveIdx) ∧ Lst s.primes 0 s.num c (L + 30 * s.sieveIdx + 7) Q ∧
    s.num + 64 ≤ v.size ∧ s.primes.size = v.size) _ (er.sieveSize - si)
    ⟨by dsimp only; omega, hsi, h8, le_refl _, rfl, ⟨le_refl _, Nat.zero_le _, fun j h1 h2 => absurd h2 (Nat.not_lt_zero _),
      fun j l h1 h2 h3 => absurd h3 (Nat.not_lt_zero _), fun x h1 h2 h3 => absurd h3 (hno x h1 h2)⟩, by simpa using hv, rfl⟩ (by omega) ?_
  rintro n ⟨num, low, si', w⟩ ⟨h1, h2, h3, h4, h5, h6, h7, h9⟩
  dsimp only at h1 h2 h3 h4 h5 h6 h7 h9 ⊢
  have hroom := h.room
  refine Ok.bind (littleEndian_ok (by omega)) (fun bits hb => ?_)
  have hw := h.word (Q := Q) hst h2 h3 (fun n hn => hQ n (by omega)) hb
  rw [h5]
  refine Ok.bind (emitBits_ok env hw (fun x hx => hc x (by omega)) h6 (by omega)) (fun r hr => ?_)
  obtain ⟨r1, r2, r3, r4⟩ := hr
  rw [csub_ok hv]
  simp only [ok_bind]
  rw [u64_add]
  have hL : L + 30 * (si' + 8) + 7 = L + 30 * si' + 247 := by ring
  refine Ok.ite (fun hcc => ?_) (fun hcc => ?_)
  · refine Ok.pure ⟨n - 8, by omega, by dsimp only; omega, hcc.2, by dsimp only; omega, by dsimp only; omega, by dsimp only; rw [show L + 30 * (si' + 8) = L + 30 * si' + 8 * 30 by ring], ?_,
      by dsimp only; omega, by dsimp only; omega⟩
    dsimp only
    rw [hL]
    exact r1
  · exact Ok.pure ⟨L + 30 * si' + 240, by omega, rfl, Pos.advance h hn h2 h3, r1, by dsimp only; omega⟩

/-! ## The tiny sieve -/

/-- `v[j]` for odd `j` says that no odd prime below `i` has struck out `j`. -/
def Tiny (v : Vec Bool) (n i : ℕ) : Prop := v.size = n + 1 ∧ ∀ j ≤ n, 3 ≤ j → j % 2 = 1 →
  (v.get j = true ↔ ∀ p, p.Prime → 3 ≤ p → p < i → p ∣ j → j < p * p)

theorem Tiny.prime {v : Vec Bool} {n i j : ℕ} (h : Tiny v n i) (hj : j ≤ n) (h3 : 3 ≤ j) (ho : j % 2 = 1)
    (hi : j < i * i) : v.get j = true ↔ j.Prime := by
  rw [h.2 j hj h3 ho]
  constructor
  · intro hall
    by_contra hnp
    have hp := Nat.minFac_prime (n := j) (by omega)
    have hd := Nat.minFac_dvd j
    have hsq : j.minFac * j.minFac ≤ j := by
      have := Nat.minFac_sq_le_self (n := j) (by omega) hnp
      rwa [pow_two] at this
    have h2 : j.minFac ≠ 2 := by
      intro hc
      rw [hc] at hd
      omega
    have := hp.two_le
    have hlt : j.minFac < i := by
      by_contra hc
      have := Nat.mul_self_le_mul_self (show i ≤ j.minFac by omega)
      omega
    have := hall j.minFac hp (by omega) hlt hd
    omega
  · intro hp q hq h3q _ hd
    have := (Nat.prime_dvd_prime_iff_eq hq hp).1 hd
    subst this
    nlinarith

theorem tinySieve_ok (n : ℕ) : Ok (tinySieve n) (fun v => v.size = n + 1 ∧ ∀ j ≤ n, 3 ≤ j → j % 2 = 1 →
    (v.get j = true ↔ j.Prime)) := by
  unfold tinySieve
  refine loop_ok (Inv := fun (s : ℕ × Vec Bool) => 3 ≤ s.1 ∧ s.1 % 2 = 1 ∧ Tiny s.2 n s.1) (v := fun s => n + 2 - s.1) _
    ⟨le_refl _, by norm_num, Vec.size_mk' _ _, fun j hj h3 ho => ?_⟩ (by dsimp only; omega) ?_
  · rw [Vec.get_mk' _ _ _ (by omega)]
    simp only [true_iff]
    intro p _ h1 h2
    omega
  · rintro ⟨i, v⟩ ⟨h3, ho, hT⟩
    dsimp only at h3 ho hT ⊢
    refine Ok.ite (fun hc => ?_) (fun hc => ?_)
    · have hin : i ≤ n := by nlinarith
      rw [Vec.rd_ok (by rw [hT.1]; omega)]
      simp only [ok_bind]
      have hpi := hT.prime hin h3 ho (by nlinarith)
      refine Ok.bind (P := fun v => Tiny v n (i + 2)) (Ok.ite (fun hb => ?_) (fun hb => ?_)) (fun v' hv' => ?_)
      · have hip := hpi.1 hb
        refine forStep_ok (Inv := fun x (w : Vec Bool) => w.size = n + 1 ∧ (∃ t, x = i * i + 2 * i * t) ∧
            ∀ j ≤ n, 3 ≤ j → j % 2 = 1 → (w.get j = true ↔ v.get j = true ∧ (i ∣ j → j < i * i ∨ x ≤ j))) _ (by omega)
          ⟨hT.1, ⟨0, by ring⟩, fun j hj h1 h2 => ?_⟩ ?_ ?_
        · constructor
          · intro h
            exact ⟨h, fun _ => by omega⟩
          · exact fun h => h.1
        · rintro x w hx1 hx2 ⟨w1, ⟨t, ht⟩, w3⟩
          rw [Vec.wr_ok (by rw [w1]; omega)]
          refine ⟨_, rfl, by rw [Vec.size_set]; exact w1, ⟨t + 1, by rw [ht]; ring⟩, fun j hj h1 h2 => ?_⟩
          rw [Vec.get_set]
          by_cases hxj : x = j
          · subst hxj
            rw [if_pos ⟨rfl, by rw [w1]; omega⟩]
            constructor
            · intro h
              cases h
            · rintro ⟨-, h⟩
              rcases h (by rw [ht]; exact ⟨i + 2 * t, by ring⟩) with h | h
              · omega
              · omega
          · rw [if_neg (by omega), w3 j hj h1 h2]
            refine and_congr_right fun _ => ?_
            refine imp_congr_right fun hd => ?_
            constructor
            · rintro (h | h)
              · exact .inl h
              · right
                by_contra hlt
                obtain ⟨q, rfl⟩ := hd
                have hq1 : i * (i + 2 * t) < i * q := by
                  have : x = i * (i + 2 * t) := by rw [ht]; ring
                  omega
                have hq2 : i * q < i * (i + 2 * t + 2) := by
                  have : x + i * 2 = i * (i + 2 * t + 2) := by rw [ht]; ring
                  omega
                have hq3 := Nat.lt_of_mul_lt_mul_left hq1
                have hq4 := Nat.lt_of_mul_lt_mul_left hq2
                have hq5 : q % 2 = 0 := by omega
                have : (i * q) % 2 = 0 := by rw [Nat.mul_mod, hq5, Nat.mul_zero]
                omega
            · rintro (h | h)
              · exact .inl h
              · exact .inr (by omega)
        · rintro x w hx1 hx2 ⟨w1, -, w3⟩
          refine ⟨w1, fun j hj h1 h2 => ?_⟩
          rw [w3 j hj h1 h2, hT.2 j hj h1 h2]
          constructor
          · rintro ⟨ha, hb⟩ p hp hp3 hpi hd
            rcases Nat.lt_or_ge p i with hlt | hge
            · exact ha p hp hp3 hlt hd
            · have : p = i ∨ p = i + 1 := by omega
              rcases this with rfl | rfl
              · rcases hb hd with h | h <;> omega
              · rcases hp.eq_two_or_odd with h | h <;> omega
          · intro ha
            refine ⟨fun p hp hp3 hlt hd => ha p hp hp3 (by omega) hd, fun hd => .inl (ha i hip h3 (by omega) hd)⟩
      · refine Ok.pure ⟨hT.1, fun j hj h1 h2 => ?_⟩
        rw [hT.2 j hj h1 h2]
        constructor
        · intro ha p hp hp3 hpi' hd
          rcases Nat.lt_or_ge p i with hlt | hge
          · exact ha p hp hp3 hlt hd
          · have : p = i ∨ p = i + 1 := by omega
            rcases this with rfl | rfl
            · exact absurd (hpi.2 hp) hb
            · rcases hp.eq_two_or_odd with h | h <;> omega
        · exact fun ha p hp hp3 hlt hd => ha p hp hp3 (by omega) hd
      · exact Ok.pure ⟨⟨by dsimp only; omega, by dsimp only; omega, hv'⟩, by dsimp only; omega⟩
    · exact Ok.pure ⟨hT.1, fun j hj h1 h2 => hT.prime hj h1 h2 (by omega)⟩

/-! ## SievingPrimes -/

/-- The sieving primes still to come: the primes between `maxPre` and `R`. -/
def SQ (m R n : ℕ) : Prop := m < n ∧ n ≤ R ∧ n.Prime

/-- Invariant of the sieving primes, without the buffer: the numbers below `b + 7` have been read. -/
structure SPCore (s : SievingPrimes) (m R e b : ℕ) : Prop where
  start : s.er.start = m + 1
  stop : s.er.stop = R
  stopLt : R < 2 ^ 32
  mpre : s.er.maxPreSieve = m
  low : s.low = u64 b
  tsize : s.tiny.size = Nat.sqrt R + 1
  tiny : ∀ j ≤ Nat.sqrt R, 3 ≤ j → j % 2 = 1 → (s.tiny.get j = true ↔ j.Prime)
  tidx : s.tinyIdx % 2 = 1 ∧ m < s.tinyIdx ∧ 3 ≤ s.tinyIdx
  pos : Pos s.er e b s.sieveIdx (fun p => p.Prime ∧ m < p ∧ p < s.tinyIdx)
  psize : s.primes.size = 128

/-- Invariant of the sieving primes: those up to `c` have been returned. -/
structure SPInv (s : SievingPrimes) (m R e b c : ℕ) : Prop extends SPCore s m R e b where
  cb : c < b + 7
  lst : Lst s.primes s.i s.size c (b + 7) (SQ m R)

theorem EInv.congr {er : Erat} {e : ℕ} {D E : ℕ → Prop} (h : EInv er e D) (hDE : ∀ p, D p ↔ E p) : EInv er e E := by
  have : D = E := funext fun p => propext (hDE p)
  rw [← this]
  exact h

theorem Nxt.congr {er : Erat} {e b : ℕ} {D E : ℕ → Prop} (h : Nxt er e b D) (hDE : ∀ p, D p ↔ E p) : Nxt er e b E := by
  have : D = E := funext fun p => propext (hDE p)
  rw [← this]
  exact h

/-- **SievingPrimes::sieveSegment**, when the bytes are used up. -/
theorem SP_sieveSegment_ok {s : SievingPrimes} {m R e b : ℕ} {pre : PreSieve} (h : SPCore s m R e b)
    (hpre : PreOK pre) (hm : pre.maxPrime = m) (hsi : s.er.sieveSize ≤ s.sieveIdx) :
    Ok (s.sieveSegment pre) (fun r => SPCore r.2 m R e b ∧
      ((r.1 = true ∧ r.2.sieveIdx < r.2.er.sieveSize) ∨
       (r.1 = false ∧ R < b + 7 ∧ r.2.i = 0 ∧ r.2.size = 1 ∧ r.2.primes.get 0 = max64))) := by
  have hpos := h.pos
  rcases hpos with ⟨hp1, -⟩ | ⟨-, hnxt⟩
  · omega
  unfold SievingPrimes.sieveSegment Erat.hasNextSegment
  rcases hnxt with ⟨hE, hb⟩ | ⟨h1, h2⟩
  · have hls := hE.lowStop
    have hst := h.stop
    rw [if_pos (by rw [decide_eq_true_iff]; omega)]
    have hhigh := hE.high
    have hhR : s.er.segmentHigh ≤ R := by omega
    refine Ok.bind (P := fun t => t.1 % 2 = 1 ∧ m < t.1 ∧ 3 ≤ t.1 ∧ s.er.segmentHigh < t.1 * t.1 ∧
      EInv t.2 e (fun p => p.Prime ∧ m < p ∧ p < t.1) ∧
      t.2 = { s.er with small := t.2.small, medium := t.2.medium, big := t.2.big }) ?_ (fun t ht => ?_)
    · refine loop_ok (Inv := fun (t : ℕ × Erat) => t.1 % 2 = 1 ∧ m < t.1 ∧ 3 ≤ t.1 ∧
        EInv t.2 e (fun p => p.Prime ∧ m < p ∧ p < t.1) ∧
        t.2 = { s.er with small := t.2.small, medium := t.2.medium, big := t.2.big })
        (v := fun t => s.er.segmentHigh + 1 - t.1) _ ⟨h.tidx.1, h.tidx.2.1, h.tidx.2.2, hE, rfl⟩ (by dsimp only; omega) ?_
      rintro ⟨x, er⟩ ⟨t1, t2, t3, t4, t5⟩
      dsimp only at t1 t2 t3 t4 t5 ⊢
      refine Ok.ite (fun hc => ?_) (fun hc => ?_)
      · have hxs : x ≤ Nat.sqrt R := Nat.le_sqrt.2 (by omega)
        have hxh : x ≤ s.er.segmentHigh := by nlinarith
        rw [Vec.rd_ok (by rw [h.tsize]; omega)]
        simp only [ok_bind]
        have hxp := h.tiny x hxs t3 t1
        refine Ok.bind (P := fun r => EInv r e (fun p => p.Prime ∧ m < p ∧ p < x + 2) ∧
          r = { s.er with small := r.small, medium := r.medium, big := r.big })
          (Ok.ite (fun hb => ?_) (fun hb => ?_)) (fun r hr => Ok.pure ⟨⟨by dsimp only; omega, by dsimp only; omega, by dsimp only; omega, hr⟩, by dsimp only; omega⟩)
        · have hmp : er.maxPreSieve = m := by rw [t5]; exact h.mpre
          have hsh : er.segmentHigh = s.er.segmentHigh := by rw [t5]
          refine Ok.mono (addSievingPrime_ok t4 (hxp.1 hb) (by rw [hmp]; exact t2) (by rw [hsh]; exact hc)) (fun r hr => ⟨hr.1.congr (fun p => ?_), ?_⟩)
          · constructor
            · rintro (⟨h1, h2, h3⟩ | rfl)
              · exact ⟨h1, h2, by omega⟩
              · exact ⟨hxp.1 hb, t2, by omega⟩
            · rintro ⟨h1, h2, h3⟩
              rcases Nat.lt_or_ge p x with h4 | h4
              · exact .inl ⟨h1, h2, h4⟩
              · right
                rcases h1.eq_two_or_odd with h5 | h5 <;> omega
          · rw [hr.2, t5]
        · refine Ok.pure ⟨t4.congr (fun p => ?_), t5⟩
          constructor
          · rintro ⟨h1, h2, h3⟩
            exact ⟨h1, h2, by omega⟩
          · rintro ⟨h1, h2, h3⟩
            refine ⟨h1, h2, ?_⟩
            by_contra hge
            have : p = x := by rcases h1.eq_two_or_odd with h5 | h5 <;> omega
            subst this
            exact hb (hxp.2 h1)
      · exact Ok.pure ⟨t1, t2, t3, by dsimp only; omega, t4, t5⟩
    · obtain ⟨t1, t2, t3, t4, t5, t6⟩ := ht
      have e1 : t.2.maxPreSieve = m := by rw [t6]; exact h.mpre
      have e2 : t.2.segmentHigh = s.er.segmentHigh := by rw [t6]
      have e3 : t.2.segmentLow = b := by rw [t6]; exact hb
      have e4 : t.2.start = m + 1 := by rw [t6]; exact h.start
      have e5 : t.2.stop = R := by rw [t6]; exact h.stop
      refine Ok.bind (sieveSegment_ok t5 hpre (by rw [e1, hm]) (fun p hp hpm hsq => ⟨hp, by omega, ?_⟩)) (fun r hr => ?_)
      · by_contra hge
        have := Nat.mul_self_le_mul_self (show t.1 ≤ p by omega)
        omega
      · obtain ⟨r1, r2, r3, r4, r5⟩ := hr
        rw [e3] at r1 r2
        have r1p := r1.pos
        refine Ok.pure ⟨⟨by dsimp only; omega, by dsimp only; omega, h.stopLt, by dsimp only; omega, h.low, h.tsize, h.tiny,
          ⟨t1, t2, t3⟩, .inl ⟨r1p, by norm_num, b, by ring, r1, r2⟩, h.psize⟩, .inl ⟨rfl, r1p⟩⟩
  · rw [if_neg (by rw [decide_eq_true_iff]; omega)]
    have hst := h.stop
    have hps := h.psize
    rw [Vec.wr_ok (by omega)]
    refine ⟨_, rfl, ⟨h.start, h.stop, h.stopLt, h.mpre, h.low, h.tsize, h.tiny, h.tidx, .inr ⟨hsi, .inr ⟨h1, h2⟩⟩,
      by dsimp only; rw [Vec.size_set]; exact hps⟩, .inr ⟨rfl, by omega, rfl, rfl, ?_⟩⟩
    dsimp only
    rw [Vec.get_set, if_pos ⟨rfl, by omega⟩]

theorem Pos.live {er : Erat} {e b si : ℕ} {D : ℕ → Prop} (h : Pos er e b si D) (hsi : si < er.sieveSize) :
    si % 8 = 0 ∧ b + 7 ≤ er.stop ∧ ∃ L, b = L + 30 * si ∧ Seg er L ∧ Nxt er e (L + 30 * er.sieveSize) D := by
  rcases h with ⟨h1, h2, L, h3, h4, h5⟩ | ⟨h1, -⟩
  · have := h4.reach
    exact ⟨h2, by omega, L, h3, h4, h5⟩
  · omega

/-- **SievingPrimes::fill**, when the buffer is used up. -/
theorem SP_fill_ok {env : Env} {s : SievingPrimes} {m R e b c : ℕ} {pre : PreSieve} (h : SPInv s m R e b c)
    (hpre : PreOK pre) (hm : pre.maxPrime = m) (hi : s.size ≤ s.i) :
    Ok (s.fill env pre) (fun r => (b + 7 ≤ R ∧ ∃ b', b + 240 ≤ b' ∧ SPInv r m R e b' c) ∨
      (R < b + 7 ∧ SPCore r m R e b ∧ r.i = 0 ∧ r.size = 1 ∧ r.primes.get 0 = max64)) := by
  unfold SievingPrimes.fill
  refine Ok.bind (P := fun r => SPCore r.2 m R e b ∧
      ((r.1 = true ∧ r.2.sieveIdx < r.2.er.sieveSize) ∨
       (r.1 = false ∧ R < b + 7 ∧ r.2.i = 0 ∧ r.2.size = 1 ∧ r.2.primes.get 0 = max64)))
    (Ok.ite (fun hsi => SP_sieveSegment_ok h.toSPCore hpre hm hsi)
      (fun hsi => Ok.pure ⟨h.toSPCore, .inl ⟨rfl, by dsimp only; omega⟩⟩)) (fun r hr => ?_)
  obtain ⟨r1, ⟨r2, r3⟩ | ⟨r2, r3⟩⟩ := hr
  · rw [if_pos r2]
    obtain ⟨p1, p2, L, p3, p4, p5⟩ := r1.pos.live r3
    have hst := r1.stop
    have hstart := r1.start
    have hlt := r1.stopLt
    have hcb := h.cb
    have hlow : r.2.low = u64 (L + 30 * r.2.sieveIdx) := by rw [r1.low, p3]
    rw [hlow]
    refine Ok.bind (fillLoop_ok env p4 p5 (by omega) r3 p1 (Q := SQ m R) (c := c) (fun n hn => ?_) (fun x hx _ => by omega)
      (fun x h1 h2 h3 => ?_) (by rw [r1.psize]; norm_num)) (fun f hf => Ok.pure (.inl ?_))
    · unfold SQ
      rw [hst, hstart]
      rfl
    · obtain ⟨j, hj⟩ := h.lst.all x h1 (by omega) h3
      omega
    · obtain ⟨b', f1, f2, f3, f4, f5⟩ := hf
      refine ⟨by omega, b', by omega, ⟨⟨r1.start, r1.stop, r1.stopLt, r1.mpre, f2, r1.tsize, r1.tiny, r1.tidx, f3,
        by dsimp only; rw [f5]; exact r1.psize⟩, by omega, f4⟩⟩
  · rw [if_neg (by rw [r2]; simp)]
    exact Ok.pure (.inr ⟨r3.1, r1, r3.2⟩)

/-- **SievingPrimes::next**: the sieving primes in order, then the maximum value. -/
theorem SP_next_ok {env : Env} {s : SievingPrimes} {m R e b c : ℕ} {pre : PreSieve} (h : SPInv s m R e b c)
    (hpre : PreOK pre) (hm : pre.maxPrime = m) :
    Ok (s.next env pre) (fun r => (Least (SQ m R) c r.1 ∧ ∃ b', SPInv r.2 m R e b' r.1) ∨
      ((∀ x, c < x → ¬ SQ m R x) ∧ r.1 = max64 ∧ ∃ b', SPInv r.2 m R e b' c)) := by
  unfold SievingPrimes.next
  refine Ok.bind (P := fun s' => (∃ b', SPInv s' m R e b' c ∧ s'.i < s'.size) ∨
      (s'.i = 0 ∧ s'.size = 1 ∧ s'.primes.get 0 = max64 ∧ ∃ b', R < b' + 7 ∧ c < b' + 7 ∧ SPCore s' m R e b' ∧
        ∀ x, c < x → ¬ SQ m R x)) ?_ (fun s' hs' => ?_)
  · have hst := h.stop
    refine loop_okm (Inv := fun n s' => (∃ b', SPInv s' m R e b' c ∧ n = R + 1 - b' + 1) ∨
      (s'.i = 0 ∧ s'.size = 1 ∧ s'.primes.get 0 = max64 ∧ ∃ b', R < b' + 7 ∧ c < b' + 7 ∧ SPCore s' m R e b' ∧
        ∀ x, c < x → ¬ SQ m R x)) _
      (R + 1 - b + 1) (.inl ⟨b, h, rfl⟩) (by omega) ?_
    rintro n s' (⟨b', hs', hn⟩ | ⟨g1, g2, g3⟩)
    · refine Ok.ite (fun hc => ?_) (fun hc => Ok.pure (.inl ⟨b', hs', by omega⟩))
      refine Ok.bind (SP_fill_ok hs' hpre hm hc) (fun r hr => Ok.pure ?_)
      rcases hr with ⟨q1, b2, q2, q3⟩ | ⟨q1, q2, q3, q4, q5⟩
      · exact ⟨R + 1 - b2 + 1, by omega, .inl ⟨b2, q3, rfl⟩⟩
      · refine ⟨0, by omega, .inr ⟨q3, q4, q5, b', q1, hs'.cb, q2, fun x hx hQ => ?_⟩⟩
        obtain ⟨j, hj⟩ := hs'.lst.all x hx (by have := hQ.2.1; omega) hQ
        omega
    · exact Ok.ite (fun hc => absurd hc (by omega)) (fun hc => Ok.pure (.inr ⟨g1, g2, g3⟩))
  · rcases hs' with ⟨b', h1, h2⟩ | ⟨h1, h2, h3, b', h4, h5, h6, h7⟩
    · have hsz := h1.lst.sz
      rw [Vec.rd_ok (by omega)]
      obtain ⟨l1, l2⟩ := h1.lst.head h2
      refine ⟨_, rfl, .inl ⟨l1, b', ⟨⟨h1.start, h1.stop, h1.stopLt, h1.mpre, h1.low, h1.tsize, h1.tiny, h1.tidx, h1.pos, h1.psize⟩, ?_, l2⟩⟩⟩
      exact (h1.lst.mem _ (le_refl _) h2).2.1
    · have hps := h6.psize
      rw [h1, Vec.rd_ok (by omega)]
      refine ⟨_, rfl, .inr ⟨h7, h3, b', ⟨⟨h6.start, h6.stop, h6.stopLt, h6.mpre, h6.low, h6.tsize, h6.tiny, h6.tidx, h6.pos, h6.psize⟩, h5, ?_⟩⟩⟩
      dsimp only
      rw [h2]
      exact ⟨le_refl _, by omega, fun j h1 h2 => by omega, fun j l h1 h2 h3 => by omega, fun x hx1 hx2 hx3 => absurd hx3 (h7 x hx1)⟩

end Psv
end PS
