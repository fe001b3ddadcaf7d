import Verif.Proof.PsvFill

/-!
# primesieve::iterator

`next_prime()` returns the least prime above the current position (and
`2^64 - 1` if there is none below `2^64`), `prev_prime()` the largest prime below it (and 0 if
there is none), in any order of calls.
-/

namespace PS
namespace Psv

/-- `p` is what `next_prime()` has to return at position `cur`. -/
def NextSpec (cur p : ℕ) : Prop :=
  (p.Prime ∧ cur < p ∧ p < 2 ^ 64 ∧ ∀ q, q.Prime → cur < q → p ≤ q) ∨
  (p = 2 ^ 64 - 1 ∧ ∀ q, q.Prime → cur < q → 2 ^ 64 ≤ q)

/-- `p` is what `prev_prime()` has to return at position `cur`. -/
def PrevSpec (cur p : ℕ) : Prop :=
  (p.Prime ∧ p < cur ∧ ∀ q, q.Prime → q < cur → q ≤ p) ∨ (p = 0 ∧ ∀ q, q.Prime → cur ≤ q)

theorem max64_not_prime : ¬ (2 ^ 64 - 1).Prime := by
  have h : (2 ^ 64 - 1 : ℕ) = 3 * 6148914691236517205 := by norm_num
  rw [h]
  exact Nat.not_prime_mul (by norm_num) (by norm_num)

/-- State of the iterator without a generator: the buffer holds the primes of `[start, stop]`, after a 0
if `start ≤ 2`. -/
structure Back (it : Iter) (z : ℕ) : Prop where
  none : it.gen = none
  le : it.start ≤ it.stop
  lt : it.stop < 2 ^ 64
  zz : (z = 1 ∧ it.start ≤ 2 ∧ it.primes.get 0 = 0) ∨ (z = 0 ∧ 2 < it.start)
  lst : Lst it.primes z it.primes.size (it.start - 1) (it.stop + 1) (GQ it.start it.stop)

/-- State of the iterator with a generator. -/
structure Forw (it : Iter) (g : PrimeGenerator) (n c B : ℕ) : Prop where
  some : it.gen = some g
  le : it.start ≤ it.stop
  lt : it.stop < 2 ^ 64
  sz : it.primes.size = 256
  lst : Lst it.primes 0 n c B (GQ it.start it.stop)
  fs : FS g it.start it.stop B

/-- The generator has run beyond the last prime below `2^64`. -/
structure Last (it : Iter) (g : PrimeGenerator) (c B : ℕ) : Prop where
  some : it.gen = some g
  le : it.start ≤ it.stop
  stop : it.stop = 2 ^ 64 - 1
  sz : it.primes.size = 256
  get : it.primes.get 0 = 2 ^ 64 - 1
  no : ∀ x, c < x → ¬ GQ it.start it.stop x
  cB : c < B
  fs : FS g it.start it.stop B

/-- The iterator stands at `cur`. -/
def IterAt (it : Iter) (cur : ℕ) : Prop :=
  (it.gen = none ∧ it.i = 0 ∧ it.lastIdx = 0 ∧ it.start = cur ∧ it.stop = cur ∧ cur < 2 ^ 64) ∨
  (∃ z, Back it z ∧ it.i ≤ it.lastIdx ∧ it.lastIdx + 1 = it.primes.size ∧ it.primes.get it.i = cur) ∨
  (∃ g c B, Forw it g (it.lastIdx + 1) c B ∧ it.i ≤ it.lastIdx ∧ it.primes.get it.i = cur) ∨
  (∃ g c B, Last it g c B ∧ it.i = 0 ∧ it.lastIdx = 0 ∧ cur = 2 ^ 64 - 1)

theorem checkedAdd_le_max {x y : ℕ} (hx : x ≤ max64) : x ≤ checkedAdd x y ∧ checkedAdd x y ≤ max64 := by
  unfold checkedAdd
  split <;> omega

theorem helperNext_ok (env : Env) (stop stopHint dist : ℕ) (hs : stop ≤ max64) :
    Ok (helperNext env stop stopHint dist) (fun r => r.1 = checkedAdd stop 1 ∧ r.1 ≤ r.2.1 ∧ r.2.1 ≤ max64) := by
  have h1 := checkedAdd_le_max (y := 1) hs
  unfold helperNext
  rw [maxCached]
  simp only [ok_bind]
  refine Ok.ite (fun hc => Ok.pure ⟨rfl, hc.le, ?_⟩) (fun hc => ?_)
  · rw [max64_eq]
    norm_num
  · unfold getNextDist
    rw [maxCached]
    simp only [ok_bind, pure_eq_ok]
    generalize (min _ _ : ℕ) = d
    refine Ok.ite (fun hh => Ok.pure ⟨rfl, ?_, ?_⟩) (fun hh => Ok.pure ⟨rfl, ?_, ?_⟩) <;> dsimp only
    · have := checkedAdd_le_max (y := env.maxGap stopHint) hh.2.le
      omega
    · exact (checkedAdd_le_max hh.2.le).2
    · exact (checkedAdd_le_max h1.2).1
    · exact (checkedAdd_le_max h1.2).2

theorem checkedSub_le (x y : ℕ) : checkedSub x y ≤ x := by
  unfold checkedSub
  split <;> omega

theorem helperPrev_ok (env : Env) (start stopHint dist : ℕ) :
    Ok (helperPrev env start stopHint dist) (fun r => r.2.1 = start - 1 ∧ r.1 ≤ r.2.1) := by
  unfold helperPrev getPrevDist
  rw [maxCached]
  simp only [ok_bind, pure_eq_ok]
  generalize (min _ _ : ℕ) = d
  have h1 : checkedSub start 1 = start - 1 := by
    unfold checkedSub
    split <;> omega
  refine Ok.ite (fun hh => Ok.pure ⟨h1, ?_⟩) (fun hh => Ok.pure ⟨h1, ?_⟩) <;> dsimp only
  · have := checkedSub_le stopHint (env.maxGap stopHint)
    omega
  · exact checkedSub_le _ _

theorem size_resize256 (v : Vec ℕ) : (resize256 v).size = 256 := by
  unfold resize256
  simp [Vec.size_ofFn]

/-- What the loop of `generate_next_primes` keeps, `cur` being the position of the iterator. -/
def NextLoop (cur : ℕ) (it : Iter) : Prop :=
  (it.gen = none ∧ cur ≤ it.stop ∧ it.stop < 2 ^ 64 ∧ ∀ q, q.Prime → cur < q → it.stop < q) ∨
  (∃ g c B, it.gen = some g ∧ it.start ≤ it.stop ∧ it.stop < 2 ^ 64 ∧ cur ≤ it.stop ∧ FS g it.start it.stop B ∧ c < B ∧
    it.primes.size = 256 ∧
    (∀ x, c < x → x < B → ¬ GQ it.start it.stop x) ∧
    (∀ q, q.Prime → q < 2 ^ 64 → cur < q → c < q ∧ it.start ≤ q) ∧ (∀ q, GQ it.start it.stop q → c < q → cur < q))

/-- What one pass of it leaves. -/
def NextRes (cur : ℕ) (it : Iter) : Prop :=
  0 < it.lastIdx ∧ NextSpec cur (it.primes.get 0) ∧
  ((∃ g c B, Forw it g it.lastIdx c B) ∨ (∃ g c B, Last it g c B ∧ it.lastIdx = 1))

/-- After `fill`. -/
theorem fillRes_next {it : Iter} {cur c : ℕ} {r : PrimeGenerator × Vec ℕ × ℕ} {start t d : ℕ} (h : FillRes start t c r)
    (hle : start ≤ t) (ht : t < 2 ^ 64) (hcur : cur ≤ t)
    (h1 : ∀ q, q.Prime → q < 2 ^ 64 → cur < q → c < q ∧ start ≤ q) (h2 : ∀ q, GQ start t q → c < q → cur < q)
    (hit : it = { it with start := start, stop := t, dist := d, gen := some r.1, primes := r.2.1, lastIdx := r.2.2 }) :
    if it.lastIdx = 0 then NextLoop cur { it with gen := none } ∧ it.stop < max64 ∧ it.stop = t else NextRes cur it := by
  obtain ⟨hsz, hr⟩ := h
  have e1 : it.start = start := by rw [hit]
  have e2 : it.stop = t := by rw [hit]
  have e3 : it.gen = some r.1 := by rw [hit]
  have e4 : it.primes = r.2.1 := by rw [hit]
  have e5 : it.lastIdx = r.2.2 := by rw [hit]
  clear hit
  rcases hr with ⟨hn, B, hL, hfs⟩ | ⟨hn, hmax, hno⟩ | ⟨hn, hget, hmax, hno, B, hcB, hfs⟩
  · rw [if_neg (by omega)]
    refine ⟨by omega, ?_, .inl ⟨r.1, c, B, ?_⟩⟩
    · obtain ⟨hl1, -⟩ := hL.head hn
      obtain ⟨l1, l2, l3⟩ := hl1
      rw [e4]
      refine .inl ⟨l2.2.2, h2 _ l2 l1, by have := l2.2.1; omega, fun q hq hcq => ?_⟩
      by_contra hlt
      have hq2 : q ≤ t := by have := l2.2.1; omega
      obtain ⟨k1, k2⟩ := h1 q hq (by omega) hcq
      exact hlt (l3 q k1 ⟨k2, hq2, hq⟩)
    · exact ⟨e3, by omega, by omega, by rw [e4]; exact hsz, by rw [e4, e5, e1, e2]; exact hL, by rw [e1, e2]; exact hfs⟩
  · rw [if_pos (by omega)]
    refine ⟨.inl ⟨rfl, by dsimp only; omega, by dsimp only; omega, fun q hq hcq => ?_⟩, by rw [max64_eq] at *; omega, e2⟩
    dsimp only
    by_contra hlt
    obtain ⟨k1, k2⟩ := h1 q hq (by omega) hcq
    exact hno q k1 ⟨k2, by omega, hq⟩
  · rw [if_neg (by omega)]
    rw [max64_eq] at hget hmax
    refine ⟨by omega, .inr ⟨by rw [e4, hget]; rfl, fun q hq hcq => ?_⟩, .inr ⟨r.1, c, B, ?_, by omega⟩⟩
    · by_contra hlt
      obtain ⟨k1, k2⟩ := h1 q hq (by omega) hcq
      exact hno q k1 ⟨k2, by omega, hq⟩
    · exact ⟨e3, by omega, by omega, by rw [e4]; exact hsz, by rw [e4, hget]; rfl, by rw [e1, e2]; exact hno, hcB, by rw [e1, e2]; exact hfs⟩

/-- `generate_next_primes` -/
theorem generateNext_ok {env : Env} {it : Iter} {cur : ℕ} (h : NextLoop cur it) :
    Ok (it.generateNext env) (fun r => NextSpec cur (r.primes.get 0) ∧ r.i = 0 ∧ 0 < r.primes.size ∧ IterAt r (r.primes.get 0)) := by
  unfold Iter.generateNext
  refine Ok.bind (P := NextRes cur) ?_ (fun r hr => Ok.pure ?_)
  · refine loop_okm (Inv := fun n (it : Iter) => NextLoop cur it ∧ it.stop ≤ max64 ∧ n = max64 - it.stop + (if it.gen.isSome then 1 else 0))
      _ (max64 - it.stop + (if it.gen.isSome then 1 else 0)) ⟨h, ?_, rfl⟩ (by split <;> omega) ?_
    · rcases h with h | ⟨g, c, B, h⟩
      · have := h.2.2.1; rw [max64_eq]; omega
      · have := h.2.2.1; rw [max64_eq]; omega
    · rintro n it ⟨hI, hs, hn⟩
      unfold Iter.refill
      rcases hI with ⟨hg, i1, i2, i3⟩ | ⟨g, c, B, hg, i1, i2, i3, i4, i5, i6, i7, i8, i9⟩
      · rw [hg] at hn ⊢
        simp only [bind_assoc]
        refine Ok.bind (helperNext_ok env it.stop it.stopHint it.dist hs) (fun h hh => ?_)
        obtain ⟨start, t, d⟩ := h
        dsimp only at hh ⊢
        obtain ⟨rfl, hh1, hh2⟩ := hh
        have hm := max64_eq
        refine Ok.bind (fillNext_fresh (t := t) (by omega) hh1 (size_resize256 _)) (fun r hr => ?_)
        have hca : (it.stop < max64 ∧ checkedAdd it.stop 1 = it.stop + 1) ∨ (it.stop = max64 ∧ checkedAdd it.stop 1 = max64) := by
          unfold checkedAdd
          split <;> omega
        generalize checkedAdd it.stop 1 = start at *
        have := fillRes_next (it := { it with start := start, stop := t, dist := d, gen := some r.1, primes := r.2.1, lastIdx := r.2.2 })
          (cur := cur) (d := d) hr hh1 (by omega) (by omega) (fun q hq hq64 hcq => by have := i3 q hq hcq; omega)
          (fun q hq hcq => by
            have := hq.1
            rcases hca with hca | hca
            · omega
            · have h1 := hq.2.1
              have h2 : q = 2 ^ 64 - 1 := by omega
              have h3 := hq.2.2
              rw [h2] at h3
              exact absurd h3 max64_not_prime) rfl
        simp only [pure_eq_ok, ok_bind]
        dsimp only at this ⊢
        split at this
        · rename_i h0
          rw [if_pos h0]
          refine Ok.ok ⟨max64 - t, ?_, this.1, hh2, rfl⟩
          have h5 := this.2
          rw [if_neg (by simp)] at hn
          omega
        · rename_i h0
          rw [if_neg h0]
          exact Ok.ok this
      · rw [hg] at hn ⊢
        simp only [bind_assoc]
        refine Ok.bind (fillNext_ok i4 i5 i7 i6) (fun r hr => ?_)
        have := fillRes_next (it := { it with gen := some r.1, primes := r.2.1, lastIdx := r.2.2 })
          (cur := cur) (d := it.dist) hr i1 i2 i3 i8 i9 rfl
        simp only [pure_eq_ok, ok_bind]
        dsimp only at this ⊢
        split at this
        · rename_i h0
          rw [if_pos h0]
          refine Ok.ok ⟨max64 - it.stop, ?_, this.1, hs, rfl⟩
          rw [if_pos (by simp)] at hn
          omega
        · rename_i h0
          rw [if_neg h0]
          exact Ok.ok this
  · obtain ⟨h0, hsp, hr⟩ := hr
    refine ⟨hsp, rfl, ?_, ?_⟩
    · rcases hr with ⟨g, c, B, hf⟩ | ⟨g, c, B, hl, h1⟩
      · have := hf.sz; dsimp only; omega
      · have := hl.sz; dsimp only; omega
    rcases hr with ⟨g, c, B, hf⟩ | ⟨g, c, B, hl, h1⟩
    · refine .inr (.inr (.inl ⟨g, c, B, ?_, Nat.zero_le _, rfl⟩))
      refine ⟨hf.some, hf.le, hf.lt, hf.sz, ?_, hf.fs⟩
      dsimp only
      rw [Nat.sub_add_cancel h0]
      exact hf.lst
    · refine .inr (.inr (.inr ⟨g, c, B, ⟨hl.some, hl.le, hl.stop, hl.sz, hl.get, hl.no, hl.cB, hl.fs⟩, rfl, ?_, hl.get⟩))
      dsimp only
      omega

/-- Two neighbours in the buffer are consecutive primes. -/
theorem lst_next {v : Vec ℕ} {z n c B s t j : ℕ} (h : Lst v z n c B (GQ s t)) (hj : z ≤ j) (hjn : j + 1 < n) :
    (v.get (j + 1)).Prime ∧ v.get j < v.get (j + 1) ∧ v.get (j + 1) ≤ t ∧ ∀ q, q.Prime → v.get j < q → v.get (j + 1) ≤ q := by
  have h1 := h.mono j (j + 1) hj (by omega) hjn
  obtain ⟨a1, a2, a3⟩ := h.mem j hj (by omega)
  obtain ⟨b1, b2, b3⟩ := h.mem (j + 1) (by omega) hjn
  refine ⟨b3.2.2, h1, b3.2.1, fun q hq hlt => ?_⟩
  by_contra hc
  have hb := b3.2.1
  have ha := a3.1
  obtain ⟨l, l1, l2, l3⟩ := h.all q (by omega) (by omega) ⟨by omega, by omega, hq⟩
  rcases Nat.lt_trichotomy l j with hl | hl | hl
  · have := h.mono l j l1 hl (by omega)
    omega
  · subst hl
    omega
  · rcases Nat.lt_or_ge l (j + 1) with hl' | hl'
    · omega
    · rcases Nat.eq_or_lt_of_le hl' with he | he
      · rw [← he] at l3; omega
      · have := h.mono (j + 1) l (by omega) he l2
        omega

/-- Nothing lies beyond the last entry of the buffer. -/
theorem lst_last {v : Vec ℕ} {z n c B s t : ℕ} (h : Lst v z n c B (GQ s t)) (hz : z < n) (q : ℕ) (hq : v.get (n - 1) < q) (hB : q < B) :
    ¬ GQ s t q := fun hQ => by
  obtain ⟨a1, a2, a3⟩ := h.mem (n - 1) (by omega) (by omega)
  obtain ⟨l, l1, l2, l3⟩ := h.all q (by omega) hB hQ
  rcases Nat.eq_or_lt_of_le (show l ≤ n - 1 by omega) with he | he
  · rw [he] at l3; omega
  · have := h.mono l (n - 1) l1 he (by omega)
    omega

/-- **next_prime()** -/
theorem nextPrime_iter {env : Env} {it : Iter} {cur : ℕ} (h : IterAt it cur) :
    Ok (it.nextPrime env) (fun r => NextSpec cur r.1 ∧ IterAt r.2 r.1) := by
  have key : (it.i = it.lastIdx → NextLoop cur it) ∧ (it.i ≠ it.lastIdx → it.i + 1 < it.primes.size ∧
      NextSpec cur (it.primes.get (it.i + 1)) ∧ IterAt { it with i := it.i + 1 } (it.primes.get (it.i + 1))) := by
    rcases h with ⟨h1, h2, h3, h4, h5, h6⟩ | ⟨z, hb, h1, h2, h3⟩ | ⟨g, c, B, hf, h1, h2⟩ | ⟨g, c, B, hl, h1, h2, h3⟩
    · exact ⟨fun _ => .inl ⟨h1, by omega, by omega, fun q _ hcq => by omega⟩, fun hne => by omega⟩
    · have hlt := hb.lt
      refine ⟨fun he => .inl ⟨hb.none, ?_, hb.lt, fun q hq hcq => ?_⟩, fun hne => ⟨by omega, ?_, ?_⟩⟩
      · rcases Nat.lt_or_ge it.i z with hz | hz
        · have : it.i = 0 := by rcases hb.zz with h | h <;> omega
          rw [this] at h3
          rcases hb.zz with h | h
          · omega
          · omega
        · have := hb.lst.mem it.i hz (by omega)
          omega
      · by_contra hc
        have hge : it.start ≤ q := by
          rcases hb.zz with h | h
          · have := hq.two_le; omega
          · have := hb.lst.mem it.i (by omega) (by omega)
            omega
        rcases Nat.lt_or_ge z it.primes.size with hz | hz
        · refine lst_last hb.lst hz q ?_ (by omega) ⟨hge, by omega, hq⟩
          have : it.primes.size - 1 = it.i := by omega
          rw [this, h3]
          exact hcq
        · obtain ⟨l, hl⟩ := hb.lst.all q (by have := hq.two_le; omega) (by omega) ⟨hge, by omega, hq⟩
          omega
      · rcases Nat.lt_or_ge it.i z with hz | hz
        · have hi : it.i = 0 := by rcases hb.zz with h | h <;> omega
          have hz1 : z = 1 := by rcases hb.zz with h | h <;> omega
          subst hz1
          obtain ⟨hl, -⟩ := hb.lst.head (by omega)
          rw [hi] at h3 ⊢
          rw [Nat.zero_add]
          rcases hb.zz with ⟨-, k1, k2⟩ | h
          · have h5 := hl.2.1.2.1
            refine .inl ⟨hl.2.1.2.2, by have := hl.2.1.2.2.pos; omega, by omega, fun q hq _ => ?_⟩
            by_contra hlt'
            exact hlt' (hl.2.2 q (by have := hq.two_le; omega) ⟨by have := hq.two_le; omega, by omega, hq⟩)
          · omega
        · obtain ⟨k1, k2, k3, k4⟩ := lst_next hb.lst hz (by omega)
          rw [h3] at k2 k4
          exact .inl ⟨k1, k2, by omega, k4⟩
      · exact .inr (.inl ⟨z, ⟨hb.none, hb.le, hb.lt, hb.zz, hb.lst⟩, by dsimp only; omega, h2, rfl⟩)
    · have hlt := hf.lt
      have hsz := hf.lst.sz
      obtain ⟨m1, m2, m3⟩ := hf.lst.mem it.i (by omega) (by omega)
      rw [h2] at m1 m2 m3
      have hm3 := m3.1
      refine ⟨fun he => .inr ⟨g, cur, B, hf.some, hf.le, hf.lt, m3.2.1, hf.fs, m2, hf.sz, fun q hq hB => ?_, fun q _ _ hcq => ⟨hcq, by omega⟩,
        fun q _ hcq => hcq⟩, fun hne => ⟨by omega, ?_, ?_⟩⟩
      · refine lst_last hf.lst (by omega) q ?_ hB
        have : it.lastIdx + 1 - 1 = it.i := by omega
        rw [this, h2]
        exact hq
      · obtain ⟨k1, k2, k3, k4⟩ := lst_next hf.lst (Nat.zero_le it.i) (by omega)
        rw [h2] at k2 k4
        exact .inl ⟨k1, k2, by omega, k4⟩
      · exact .inr (.inr (.inl ⟨g, c, B, ⟨hf.some, hf.le, hf.lt, hf.sz, hf.lst, hf.fs⟩, by dsimp only; omega, rfl⟩))
    · have hst := hl.stop
      exact ⟨fun he => .inr ⟨g, c, B, hl.some, hl.le, by omega, by omega, hl.fs, hl.cB, hl.sz, fun q hq _ => hl.no q hq,
        fun q _ _ hcq => by omega, fun q hQ hcq => absurd hQ (hl.no q hcq)⟩, fun hne => by omega⟩
  unfold Iter.nextPrime
  by_cases he : it.i = it.lastIdx
  · rw [if_pos he]
    refine Ok.bind (generateNext_ok (key.1 he)) (fun r hr => ?_)
    obtain ⟨r1, r2, hsz, r3⟩ := hr
    rw [r2, Vec.rd_ok hsz]
    exact Ok.pure ⟨r1, r3⟩
  · rw [if_neg he]
    obtain ⟨k1, k2, k3⟩ := key.2 he
    rw [pure_eq_ok, ok_bind]
    dsimp only
    rw [Vec.rd_ok k1]
    exact Ok.pure ⟨k2, k3⟩

/-! ## prev_prime -/

/-- `generate_prev_primes` -/
theorem generatePrev_ok {env : Env} {it : Iter} {cur : ℕ}
    (h : (it.gen = none ∧ it.start < 2 ^ 64 ∧ ∀ q, q.Prime → (q < cur ↔ q < it.start)) ∨
      (it.gen ≠ none ∧ 0 < it.primes.size ∧ it.primes.get 0 = cur ∧ cur < 2 ^ 64)) :
    Ok (it.generatePrev env) (fun r => r.i < r.primes.size ∧ PrevSpec cur (r.primes.get r.i) ∧ IterAt r (r.primes.get r.i)) := by
  unfold Iter.generatePrev
  refine Ok.bind (P := fun (it : Iter) => it.start < 2 ^ 64 ∧ ∀ q, q.Prime → (q < cur ↔ q < it.start)) ?_ (fun it1 h1 => ?_)
  · rcases h with ⟨h1, h2⟩ | ⟨h1, h2, h3, h4⟩
    · rw [if_neg (by rw [h1]; simp)]
      exact Ok.pure h2
    · rw [if_pos (by rw [Option.isSome_iff_ne_none]; exact h1), Vec.rd_ok h2]
      refine Ok.pure ⟨?_, fun q _ => ?_⟩ <;> dsimp only <;> rw [h3]
      exact h4
  · clear h it
    dsimp only
    refine Ok.bind (P := fun (it : Iter) => 0 < it.primes.size ∧ (∃ z, Back it z) ∧ ∀ q, q.Prime → (q < cur ↔ q ≤ it.stop)) ?_ (fun r hr => Ok.pure ?_)
    · refine loop_okm (Inv := fun n (it : Iter) => (it.primes.size = 0 ∧ n = it.start + 1 ∧ it.start < 2 ^ 64 ∧ ∀ q, q.Prime → (q < cur ↔ q < it.start)) ∨
          (n = 0 ∧ 0 < it.primes.size ∧ (∃ z, Back it z) ∧ ∀ q, q.Prime → (q < cur ↔ q ≤ it.stop))) _ (it1.start + 1)
        (.inl ⟨rfl, rfl, h1⟩) (Nat.lt_succ_self _) ?_
      rintro n it hI
      rcases hI with ⟨i1, i2, i3, i4⟩ | ⟨i1, i2, i3, i4⟩
      · rw [if_pos i1]
        refine Ok.bind (helperPrev_ok env it.start it.stopHint it.dist) (fun h hh => ?_)
        obtain ⟨start, t, d⟩ := h
        dsimp only at hh ⊢
        obtain ⟨hh1, hh2⟩ := hh
        refine Ok.bind (fillPrev_ok (by omega) hh2) (fun r hr => Ok.pure ?_)
        obtain ⟨r1, r2⟩ := hr
        have hq : ∀ q, q.Prime → (q < cur ↔ q ≤ t) := fun q hq => by
          rw [i4 q hq]
          have := hq.two_le
          omega
        by_cases hz : start ≤ 2
        · rw [if_pos hz] at r1 r2
          have hs1 : (it.primes.push 0).size = 1 := by rw [Vec.size_push, i1]
          rw [hs1] at r1 r2
          refine ⟨0, by omega, .inr ⟨rfl, ?_, ⟨1, ⟨rfl, hh2, ?_, .inl ⟨rfl, hz, ?_⟩, ?_⟩⟩, hq⟩⟩ <;> dsimp only
          · have h3 := r1.le
            omega
          · omega
          · rw [r2 0 (by omega), Vec.get_push, if_pos (by omega)]
          · exact r1
        · rw [if_neg hz] at r1 r2
          rw [i1] at r1
          by_cases hs0 : r.2.size = 0
          · refine ⟨start + 1, by omega, .inl ⟨?_, rfl, ?_, fun q hq' => ?_⟩⟩ <;> dsimp only
            · exact hs0
            · omega
            · rw [hq q hq']
              constructor
              · intro hqt
                by_contra hc
                obtain ⟨j, hj⟩ := r1.all q (by have := hq'.two_le; omega) (by omega) ⟨by omega, hqt, hq'⟩
                omega
              · intro hqt
                omega
          · refine ⟨0, by omega, .inr ⟨rfl, ?_, ⟨0, ⟨rfl, hh2, ?_, .inr ⟨rfl, by dsimp only; omega⟩, ?_⟩⟩, hq⟩⟩ <;> dsimp only
            · omega
            · omega
            · exact r1
      · rw [if_neg (by omega)]
        exact Ok.pure ⟨i2, i3, i4⟩
    · obtain ⟨h0, ⟨z, hb⟩, hq⟩ := hr
      refine ⟨by dsimp only; omega, ?_, .inr (.inl ⟨z, ⟨hb.none, hb.le, hb.lt, hb.zz, hb.lst⟩, le_refl _, by dsimp only; omega, rfl⟩)⟩
      dsimp only
      rcases Nat.lt_or_ge z r.primes.size with hz | hz
      · obtain ⟨m1, m2, m3⟩ := hb.lst.mem (r.primes.size - 1) (by omega) (by omega)
        refine .inl ⟨m3.2.2, (hq _ m3.2.2).2 m3.2.1, fun q hqp hqc => ?_⟩
        by_contra hlt
        have hqs := (hq q hqp).1 hqc
        have := m3.1
        exact lst_last hb.lst hz q (by omega) (by omega) ⟨by omega, hqs, hqp⟩
      · rcases hb.zz with ⟨k1, k2, k3⟩ | ⟨k1, k2⟩
        · have hs1 : r.primes.size - 1 = 0 := by omega
          rw [hs1]
          refine .inr ⟨k3, fun q hqp => ?_⟩
          by_contra hlt
          have hqs := (hq q hqp).1 (by omega)
          have h2 := hqp.two_le
          obtain ⟨j, hj⟩ := hb.lst.all q (by omega) (by omega) ⟨by omega, hqs, hqp⟩
          omega
        · omega

/-- **prev_prime()** -/
theorem prevPrime_iter {env : Env} {it : Iter} {cur : ℕ} (h : IterAt it cur) :
    Ok (it.prevPrime env) (fun r => PrevSpec cur r.1 ∧ IterAt r.2 r.1) := by
  have key : (it.i = 0 → (it.gen = none ∧ it.start < 2 ^ 64 ∧ ∀ q, q.Prime → (q < cur ↔ q < it.start)) ∨
      (it.gen ≠ none ∧ 0 < it.primes.size ∧ it.primes.get 0 = cur ∧ cur < 2 ^ 64)) ∧ (it.i ≠ 0 → it.i - 1 < it.primes.size ∧
      PrevSpec cur (it.primes.get (it.i - 1)) ∧ IterAt { it with i := it.i - 1 } (it.primes.get (it.i - 1))) := by
    rcases h with ⟨h1, h2, h3, h4, h5, h6⟩ | ⟨z, hb, h1, h2, h3⟩ | ⟨g, c, B, hf, h1, h2⟩ | ⟨g, c, B, hl, h1, h2, h3⟩
    · exact ⟨fun _ => .inl ⟨h1, by omega, fun q _ => by rw [h4]⟩, fun hne => by omega⟩
    · have hlt := hb.lt
      have hle := hb.le
      refine ⟨fun he => .inl ⟨hb.none, by omega, fun q hq => ?_⟩, fun hne => ⟨by omega, ?_, ?_⟩⟩
      · have h2' := hq.two_le
        rw [he] at h3
        rcases hb.zz with ⟨k1, k2, k3⟩ | ⟨k1, k2⟩
        · omega
        · subst k1
          obtain ⟨hl, -⟩ := hb.lst.head (by omega)
          rw [h3] at hl
          have l1 := hl.2.1.1
          constructor
          · intro hqc
            by_contra hc
            have := hl.2.2 q (by omega) ⟨by omega, by have := hl.2.1.2.1; omega, hq⟩
            omega
          · intro hqs
            omega
      · rcases Nat.lt_or_ge (it.i - 1) z with hz | hz
        · have hi : it.i - 1 = 0 := by rcases hb.zz with h | h <;> omega
          have hz1 : z = 1 := by rcases hb.zz with h | h <;> omega
          subst hz1
          obtain ⟨hl, -⟩ := hb.lst.head (by omega)
          have hi1 : it.i = 1 := by omega
          rw [hi1] at h3
          rw [hi]
          rcases hb.zz with ⟨-, k1, k2⟩ | h
          · refine .inr ⟨k2, fun q hq => ?_⟩
            have h2' := hq.two_le
            by_contra hlt'
            have h5 := hl.2.1.2.1
            have := hl.2.2 q (by omega) ⟨by omega, by omega, hq⟩
            omega
          · omega
        · obtain ⟨m1, m2, m3⟩ := hb.lst.mem (it.i - 1) hz (by omega)
          obtain ⟨k1, k2, k3, k4⟩ := lst_next hb.lst hz (by omega)
          have hi : it.i - 1 + 1 = it.i := by omega
          rw [hi, h3] at k1 k2 k3 k4
          refine .inl ⟨m3.2.2, k2, fun q hq hqc => ?_⟩
          by_contra hlt'
          have := k4 q hq (by omega)
          omega
      · exact .inr (.inl ⟨z, ⟨hb.none, hb.le, hb.lt, hb.zz, hb.lst⟩, by dsimp only; omega, h2, rfl⟩)
    · have hlt := hf.lt
      have hsz := hf.lst.sz
      have hsz' := hf.sz
      refine ⟨fun he => .inr ⟨by rw [hf.some]; simp, by omega, by rw [← he]; exact h2, ?_⟩, fun hne => ⟨by omega, ?_, ?_⟩⟩
      · have := (hf.lst.mem it.i (by omega) (by omega)).2.2.2.1
        omega
      · obtain ⟨m1, m2, m3⟩ := hf.lst.mem (it.i - 1) (by omega) (by omega)
        obtain ⟨k1, k2, k3, k4⟩ := lst_next hf.lst (Nat.zero_le (it.i - 1)) (by omega)
        have hi : it.i - 1 + 1 = it.i := by omega
        rw [hi, h2] at k1 k2 k3 k4
        refine .inl ⟨m3.2.2, k2, fun q hq hqc => ?_⟩
        by_contra hlt'
        have := k4 q hq (by omega)
        omega
      · exact .inr (.inr (.inl ⟨g, c, B, ⟨hf.some, hf.le, hf.lt, hf.sz, hf.lst, hf.fs⟩, by dsimp only; omega, rfl⟩))
    · have hsz' := hl.sz
      exact ⟨fun he => .inr ⟨by rw [hl.some]; simp, by omega, by rw [hl.get, h3], by omega⟩, fun hne => by omega⟩
  unfold Iter.prevPrime
  by_cases he : it.i = 0
  · rw [if_pos he]
    refine Ok.bind (generatePrev_ok (key.1 he)) (fun r hr => ?_)
    obtain ⟨r1, r2, r3⟩ := hr
    rw [Vec.rd_ok r1]
    exact Ok.pure ⟨r2, r3⟩
  · rw [if_neg he]
    obtain ⟨k1, k2, k3⟩ := key.2 he
    rw [pure_eq_ok, ok_bind]
    dsimp only
    rw [Vec.rd_ok k1]
    exact Ok.pure ⟨k2, k3⟩

theorem make_at {start : ℕ} (stopHint : ℕ) (h : start < 2 ^ 64) : IterAt (Iter.make start stopHint) start :=
  .inl ⟨rfl, rfl, rfl, rfl, rfl, h⟩

end Psv
end PS
