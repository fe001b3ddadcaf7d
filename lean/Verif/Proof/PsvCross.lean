import Verif.Proof.PsvEntry

/-!
# EratSmall and EratMedium cross off exactly the multiples of their primes
-/

namespace PS
namespace Psv

/-- A set of entries handles the primes `D` in an array with base `L`. -/
structure Handles (w : WheelT) (L stop : ℕ) (D : ℕ → Prop) (mem : SievingPrime → Prop) : Prop where
  entry : ∀ s, mem s → Entry w L s ∧ D (primeOf w s)
  all : ∀ p, D p → Dead w.modulo L stop p ∨ ∃ s, mem s ∧ primeOf w s = p

/-- The effect of crossing off one prime in the bytes `lo ≤ i < hi`. -/
structure One (L lo hi p : ℕ) (S S' : Vec Byte) : Prop where
  size : S'.size = S.size
  sub : ∀ i < S.size, ∀ k < 8, bitAt S' i k = true → bitAt S i k = true
  sound : ∀ i < S.size, ∀ k < 8, bitAt S i k = true → bitAt S' i k = false →
    ∃ c, p ≤ c ∧ c.Coprime 30 ∧ L + 30 * i + bv k = p * c
  complete : ∀ i < S.size, ∀ k < 8, lo ≤ i → i < hi → (∃ c, p ≤ c ∧ c.Coprime 30 ∧ L + 30 * i + bv k = p * c) →
    bitAt S' i k = false

/-- A walk from base `lo` to base `hi`. -/
theorem Walk.one {L p q0 lo hi q wi0 mi0 mi wi : ℕ} {S S' : Vec Byte} (hlo : lo ≤ hi)
    (h0 : State W30 (L + 30 * lo) p q0 mi0 wi0) (h : Walk L p q0 hi S q (hi + mi) wi S') :
    State W30 (L + 30 * hi) p q mi wi ∧ One L lo hi p S S' := by
  have hp0 : 0 < p := by have := h0.gt; omega
  have hre : Ready 30 (L + 30 * hi) p q := by
    intro c h1 h2 h3
    rcases lt_or_ge c q0 with h4 | h4
    · have := h0.ready c h1 h4 h3
      omega
    · have := h.inside c h4 h3 h2
      omega
  have hat : At W30 (L + 30 * hi) p q mi wi := by
    have := h.pos.rebase (n := hi) (by omega)
    rwa [Nat.add_sub_cancel_left] at this
  refine ⟨⟨h0.cop, h0.gt, h0.le.trans h.le, hat, hre⟩, ?_⟩
  refine ⟨h.rem.1, fun i hi k hk hb => ((h.rem.2 i hi k hk).1 hb).1, fun i hi k hk h1 h2 => ?_,
    fun i hi k hk h1 h2 h3 => ?_⟩
  · have h3 := h.rem.2 i hi k hk
    rw [h2] at h3
    have : MultIn 30 p q0 q (L + 30 * i + bv k) := by
      by_contra hc
      have := h3.2 ⟨h1, hc⟩
      cases this
    obtain ⟨c, c1, c2, c3, c4⟩ := this
    exact ⟨c, h0.le.trans c2, c1, c4⟩
  · have h4 := h.rem.2 i hi k hk
    obtain ⟨c, c1, c2, c3⟩ := h3
    have hbk := bv_range hk
    by_contra hc
    have hc : bitAt S' i k = true := by simpa using hc
    refine (h4.1 hc).2 ⟨c, c2, ?_, ?_, c3⟩
    · by_contra h5
      have := h0.ready c c1 (by omega) c2
      omega
    · by_contra h5
      have h6 : p * q ≤ p * c := Nat.mul_le_mul_left _ (by omega)
      have h7 := hat.hpos
      have := bv_range (kOf_lt (p * q))
      omega

/-- The bound that keeps the multiple index below 2^23. -/
def spMax : ℕ := 1000000

theorem smallPrime_ok {L lo hi : ℕ} {S : Vec Byte} {s : SievingPrime} (hlo : lo ≤ hi) (hhi : hi ≤ S.size)
    (h : Entry W30 (L + 30 * lo) s) (hsp : s.sievingPrime ≤ spMax) :
    Ok (smallPrime lo hi s S) (fun r => Entry W30 (L + 30 * hi) r.1 ∧ primeOf W30 r.1 = primeOf W30 s ∧
      One L lo hi (primeOf W30 s) S r.2) := by
  obtain ⟨q0, h0⟩ := h
  have hp := h0.cop30 W30_good
  have hdiv := primeOf_div W30 s
  have hat := h0.pos.rebase'
  have hwi := (hat.elem W30_good hp).2.2
  rw [W30_size.1] at hwi
  unfold smallPrime
  dsimp only
  rw [if_pos (by omega), ← hdiv]
  refine Ok.bind (smallSwitch_ok hp hhi (by omega) (by have := h0.gt; omega) hat) (fun r hr => Ok.pure ?_)
  obtain ⟨q, hw, hb⟩ := hr
  obtain ⟨hst, hone⟩ := hw.one hlo h0
  have hmi := mi_lt s
  unfold spMax at hsp
  have hwi' := (hst.pos.elem W30_good hp).2.2
  rw [W30_size.1] at hwi'
  have hd := upd_decode (s := s) (mi := r.1) (wi := r.2.1) (by omega) (by omega)
  have hpo : primeOf W30 (s.upd r.1 r.2.1) = primeOf W30 s :=
    hst.pos.primeOf W30_good hp (by rw [hd.1, hdiv]) hd.2.2
  refine ⟨⟨q, ?_⟩, hpo, hone⟩
  dsimp only
  rw [hpo, hd.2.1, hd.2.2]
  exact hst

theorem One.trans_crossed {L lo hi p : ℕ} {D : ℕ → Prop} {S S' S'' : Vec Byte}
    (h1 : S'.size = S.size)
    (hsub : ∀ i < S.size, ∀ k < 8, bitAt S' i k = true → bitAt S i k = true)
    (hsound : ∀ i < S.size, ∀ k < 8, bitAt S i k = true → bitAt S' i k = false →
      Struck 30 D (L + 30 * i + bv k))
    (h : One L lo hi p S' S'') (hD : D p) :
    S''.size = S.size ∧ (∀ i < S.size, ∀ k < 8, bitAt S'' i k = true → bitAt S i k = true) ∧
    (∀ i < S.size, ∀ k < 8, bitAt S i k = true → bitAt S'' i k = false → Struck 30 D (L + 30 * i + bv k)) := by
  refine ⟨h.size.trans h1, fun i hi k hk hb => hsub i hi k hk (h.sub i (h1 ▸ hi) k hk hb), fun i hi k hk h2 h3 => ?_⟩
  cases hb : bitAt S' i k
  · exact hsound i hi k hk h2 hb
  · obtain ⟨c, h4⟩ := h.sound i (h1 ▸ hi) k hk hb h3
    exact ⟨p, hD, c, h4⟩

/-- The entries of a vector. -/
def vmem (v : Vec SievingPrime) (s : SievingPrime) : Prop := ∃ j < v.size, v.get j = s

theorem smallCross_ok {L lo hi stop : ℕ} {D : ℕ → Prop} {S : Vec Byte} {v : Vec SievingPrime} (hlo : lo ≤ hi)
    (hhi : hi ≤ S.size) (h : Handles W30 (L + 30 * lo) stop D (vmem v)) (hsp : ∀ p, D p → p / 30 ≤ spMax) :
    Ok (smallCross lo hi v S) (fun r => Handles W30 (L + 30 * hi) stop D (vmem r.1) ∧
      Crossed 30 L lo hi stop D S r.2) := by
  unfold smallCross
  refine Ok.mono (forUp_ok (Inv := fun j (t : Vec SievingPrime × Vec Byte) => t.1.size = v.size ∧
    (∀ k, j ≤ k → k < v.size → t.1.get k = v.get k) ∧
    (∀ k < j, Entry W30 (L + 30 * hi) (t.1.get k) ∧ primeOf W30 (t.1.get k) = primeOf W30 (v.get k)) ∧
    (t.2.size = S.size ∧ (∀ i < S.size, ∀ k < 8, bitAt t.2 i k = true → bitAt S i k = true) ∧
    (∀ i < S.size, ∀ k < 8, bitAt S i k = true → bitAt t.2 i k = false → Struck 30 D (L + 30 * i + bv k))) ∧
    (∀ m < j, ∀ i < S.size, ∀ k < 8, lo ≤ i → i < hi →
      (∃ c, primeOf W30 (v.get m) ≤ c ∧ c.Coprime 30 ∧ L + 30 * i + bv k = primeOf W30 (v.get m) * c) →
      bitAt t.2 i k = false)) ?_ (Nat.zero_le _) ?_) ?_
  · refine ⟨rfl, fun _ _ _ => rfl, fun _ h => by omega, ⟨rfl, fun _ _ _ _ h => h, fun i _ k _ h1 h2 => ?_⟩,
      fun _ h => by omega⟩
    rw [h1] at h2
    cases h2
  · rintro j ⟨v', S'⟩ _ hj ⟨h1, h2, h3, h4, h5⟩
    dsimp only at h1 h2 h3 h4 h5 ⊢
    rw [Vec.rd_ok (by omega)]
    simp only [ok_bind]
    rw [h2 j (le_refl _) hj]
    obtain ⟨e1, e2⟩ := h.entry (v.get j) ⟨j, hj, rfl⟩
    have e3 := hsp _ e2
    rw [primeOf_div] at e3
    refine Ok.bind (smallPrime_ok (L := L) hlo (S := S') (by rw [h4.1]; exact hhi) e1 e3) (fun r hr => ?_)
    obtain ⟨r1, r2, r3⟩ := hr
    rw [Vec.wr_ok (by omega)]
    simp only [ok_bind]
    refine Ok.pure ⟨by simp [h1], fun k hk hk2 => ?_, fun k hk => ?_,
      r3.trans_crossed h4.1 h4.2.1 h4.2.2 e2, fun m hm i hi' k hk a b c => ?_⟩
    · dsimp only
      rw [Vec.get_set_ne _ _ _ _ (by omega)]
      exact h2 k (by omega) hk2
    · dsimp only
      rcases Nat.lt_succ_iff_lt_or_eq.1 hk with hk | hk
      · rw [Vec.get_set_ne _ _ _ _ (by omega)]
        exact h3 k hk
      · subst hk
        rw [Vec.get_set_self _ _ _ (by omega)]
        exact ⟨r1, r2⟩
    · dsimp only
      rcases Nat.lt_succ_iff_lt_or_eq.1 hm with hm | hm
      · have h6 := h5 m hm i hi' k hk a b c
        by_contra hc
        have := r3.sub i (by rw [h4.1]; exact hi') k hk (by simpa using hc)
        rw [h6] at this
        cases this
      · subst hm
        exact r3.complete i (by rw [h4.1]; exact hi') k hk a b c
  · rintro ⟨v', S'⟩ ⟨h1, h2, h3, h4, h5⟩
    dsimp only at h1 h2 h3 h4 h5 ⊢
    refine ⟨⟨?_, fun p hD => ?_⟩, h4.1, h4.2.1, h4.2.2, ?_⟩
    · rintro s ⟨j, hj, rfl⟩
      have h6 := h3 j (by omega)
      refine ⟨h6.1, ?_⟩
      rw [h6.2]
      exact (h.entry (v.get j) ⟨j, by omega, rfl⟩).2
    · rcases h.all p hD with h6 | ⟨s, ⟨j, hj, rfl⟩, h6⟩
      · exact .inl (h6.mono (by omega))
      · exact .inr ⟨v'.get j, ⟨j, by omega, rfl⟩, by rw [(h3 j hj).2, h6]⟩
    · rintro i hi' k hk a b hs ⟨p, hD, c, c1, c2, c3⟩
      rcases h.all p hD with h6 | ⟨s, ⟨j, hj, rfl⟩, h6⟩
      · have hbk := bv_range hk
        have := h6 c c1 c2 (by omega)
        omega
      · exact h5 j hj i hi' k hk a b ⟨c, by rw [h6]; exact ⟨c1, c2, c3⟩⟩

/-- **EratSmall::crossOff.** -/
theorem EratSmall_crossOff_ok {L n : ℕ} {D : ℕ → Prop} {S : Vec Byte} {s : EratSmall} (hn : n ≤ S.size)
    (hl1 : 0 < s.l1CacheSize)
    (h : Handles W30 L s.stop D (vmem s.primes)) (hsp : ∀ p, D p → p / 30 ≤ spMax) :
    Ok (s.crossOff S n) (fun r => Handles W30 (L + 30 * n) s.stop D (vmem r.1.primes) ∧
      Crossed 30 L 0 n s.stop D S r.2 ∧ r.1 = { s with primes := r.1.primes }) := by
  unfold EratSmall.crossOff
  refine Ok.bind (P := fun t => Handles W30 (L + 30 * n) s.stop D (vmem t.1) ∧ Crossed 30 L 0 n s.stop D S t.2)
    (forStep_ok (Inv := fun i (t : Vec SievingPrime × Vec Byte) => Handles W30 (L + 30 * (min i n)) s.stop D (vmem t.1) ∧
    Crossed 30 L 0 (min i n) s.stop D S t.2) _ hl1 ?_ ?_ ?_) (fun t ht => Ok.pure ⟨ht.1, ht.2, rfl⟩)
  · dsimp only
    rw [Nat.zero_min, Nat.mul_zero, Nat.add_zero]
    exact ⟨h, Crossed.refl⟩
  · rintro i ⟨v, S'⟩ _ hi ⟨h1, h2⟩
    dsimp only at h1 h2 ⊢
    rw [min_eq_left (by omega)] at h1 h2
    refine Ok.mono (smallCross_ok (by omega) (by rw [h2.size]; omega) h1 hsp) fun r hr => ⟨hr.1, h2.trans hr.2⟩
  · rintro i ⟨v, S'⟩ _ hi ⟨h1, h2⟩
    dsimp only at h1 h2 ⊢
    rw [min_eq_right hi] at h1 h2
    exact ⟨h1, h2⟩

theorem EratSmall_add_ok {L p : ℕ} {D : ℕ → Prop} {s : EratSmall}
    (h : Handles W30 L s.stop D (vmem s.primes)) (hp : p.Coprime 30) (hp1 : 1 < p) (hp2 : p ≤ 2 ^ 22)
    (hL : L % 30 = 0) (hL2 : L < 2 ^ 64) (hs : s.stop < 2 ^ 64) (hsq : p * p < L + 30 * 2 ^ 22 + 7) :
    Ok (s.add p L) (fun r => Handles W30 L s.stop (fun x => D x ∨ x = p) (vmem r.primes) ∧
      r = { s with primes := r.primes }) := by
  unfold EratSmall.add
  refine Ok.bind (Wheel_add_ok W30_good (stop := s.stop) hp hp1 (by omega) hL hL2 hs) (fun r hr => ?_)
  match r with
  | none =>
    refine Ok.pure ⟨⟨fun e he => ⟨(h.entry e he).1, .inl (h.entry e he).2⟩, fun x hx => ?_⟩, rfl⟩
    rcases hx with hx | rfl
    · exact h.all x hx
    · exact .inl hr
  | some (mi, wi) =>
    obtain ⟨q, h1, h2, h3⟩ := hr
    have hpos := h1.pos.hpos
    have hbv := bv_range (kOf_lt (p * q))
    have hwi := (h1.pos.elem W30_good hp).2.2
    rw [W30_size.1] at hwi
    have hmi : mi < 2 ^ 23 := by
      rcases h3 with h3 | h3
      · rw [h3] at hpos hbv
        omega
      · omega
    have hd := make_decode (sp := p / 30) (mi := mi) (wi := wi) hmi (by omega) (by omega)
    have hpo : primeOf W30 (.make (p / 30) mi wi) = p := h1.pos.primeOf W30_good hp hd.1 hd.2.2
    have hent : Entry W30 L (.make (p / 30) mi wi) := ⟨q, by rw [hpo, hd.2.1, hd.2.2]; exact h1⟩
    refine Ok.pure ⟨⟨?_, fun x hx => ?_⟩, rfl⟩
    · rintro e ⟨j, hj, rfl⟩
      dsimp only at hj ⊢
      rw [Vec.get_push]
      split
      · exact ⟨hent, .inr hpo⟩
      · rw [Vec.size_push] at hj
        have := h.entry (s.primes.get j) ⟨j, by omega, rfl⟩
        exact ⟨this.1, .inl this.2⟩
    · rcases hx with hx | rfl
      · rcases h.all x hx with h4 | ⟨e, ⟨j, hj, rfl⟩, he⟩
        · exact .inl h4
        · refine .inr ⟨s.primes.get j, ⟨j, ?_, ?_⟩, he⟩ <;> dsimp only
          · rw [Vec.size_push]
            omega
          · rw [Vec.get_push, if_neg (by omega)]
      · refine .inr ⟨_, ⟨s.primes.size, ?_, ?_⟩, hpo⟩ <;> dsimp only
        · rw [Vec.size_push]
          omega
        · rw [Vec.get_push, if_pos rfl]

/-! ## EratMedium -/

/-- `y` is in the list of buckets number `i`. -/
def inB (b : Vec Buckets) (i : ℕ) (y : SievingPrime) : Prop := y ∈ (b.get i).flatten

theorem push_mem (b : Buckets) (x y : SievingPrime) : y ∈ (b.push x).flatten ↔ y ∈ b.flatten ∨ y = x := by
  unfold Buckets.push
  match b with
  | [] => simp
  | c :: cs =>
    dsimp only
    split <;> simp [or_comm, or_left_comm]

theorem pushAt_ok {b : Vec Buckets} {i : ℕ} (hi : i < b.size) (x : SievingPrime) :
    Ok (pushAt b i x) (fun b' => b'.size = b.size ∧ ∀ j y, inB b' j y ↔ inB b j y ∨ (j = i ∧ y = x)) := by
  unfold pushAt
  rw [Vec.rd_ok hi]
  simp only [ok_bind]
  rw [Vec.wr_ok hi]
  refine ⟨_, rfl, Vec.size_set _ _ _, fun j y => ?_⟩
  unfold inB
  rw [Vec.get_set]
  split
  · next h =>
    obtain ⟨rfl, -⟩ := h
    rw [push_mem]
    tauto
  · next h =>
    have : j ≠ i := fun e => h ⟨e.symm, hi⟩
    tauto

/-- The entries of all lists of buckets. -/
def bmem (b : Vec Buckets) (y : SievingPrime) : Prop := ∃ i < b.size, inB b i y

/-- What happens when the entries `P` are processed for the bytes `0 ≤ i < n`. -/
structure Proc (L n : ℕ) (P : SievingPrime → Prop) (b : Vec Buckets) (S : Vec Byte) (b' : Vec Buckets)
    (S' : Vec Byte) : Prop where
  bsize : b'.size = b.size
  size : S'.size = S.size
  sub : ∀ i < S.size, ∀ k < 8, bitAt S' i k = true → bitAt S i k = true
  sound : ∀ i < S.size, ∀ k < 8, bitAt S i k = true → bitAt S' i k = false →
    ∃ e, P e ∧ ∃ c, primeOf W30 e ≤ c ∧ c.Coprime 30 ∧ L + 30 * i + bv k = primeOf W30 e * c
  complete : ∀ e, P e → ∀ i < S.size, ∀ k < 8, i < n →
    (∃ c, primeOf W30 e ≤ c ∧ c.Coprime 30 ∧ L + 30 * i + bv k = primeOf W30 e * c) → bitAt S' i k = false
  keep : ∀ i y, inB b i y → inB b' i y
  new : ∀ i y, inB b' i y → inB b i y ∨
    (y.wheelIndex = i ∧ Entry W30 (L + 30 * n) y ∧ ∃ e, P e ∧ primeOf W30 y = primeOf W30 e)
  all : ∀ e, P e → ∃ y, bmem b' y ∧ primeOf W30 y = primeOf W30 e

theorem Proc.refl {L n : ℕ} {P : SievingPrime → Prop} {b : Vec Buckets} {S : Vec Byte} (h : ∀ e, ¬ P e) :
    Proc L n P b S b S where
  bsize := rfl
  size := rfl
  sub := fun _ _ _ _ h => h
  sound := fun _ _ _ _ h h' => by rw [h] at h'; cases h'
  complete := fun e he => absurd he (h e)
  keep := fun _ _ h => h
  new := fun _ _ h => .inl h
  all := fun e he => absurd he (h e)

theorem Proc.trans {L n : ℕ} {P Q : SievingPrime → Prop} {b b' b'' : Vec Buckets} {S S' S'' : Vec Byte}
    (h : Proc L n P b S b' S') (h' : Proc L n Q b' S' b'' S'') : Proc L n (fun e => P e ∨ Q e) b S b'' S'' where
  bsize := h'.bsize.trans h.bsize
  size := h'.size.trans h.size
  sub := fun i hi k hk hb => h.sub i hi k hk (h'.sub i (h.size ▸ hi) k hk hb)
  sound := fun i hi k hk h1 h2 => by
    cases hb : bitAt S' i k
    · obtain ⟨e, he, h3⟩ := h.sound i hi k hk h1 hb
      exact ⟨e, .inl he, h3⟩
    · obtain ⟨e, he, h3⟩ := h'.sound i (h.size ▸ hi) k hk hb h2
      exact ⟨e, .inr he, h3⟩
  complete := fun e he i hi k hk h1 h2 => by
    rcases he with he | he
    · have h3 := h.complete e he i hi k hk h1 h2
      by_contra hc
      have h4 := h'.sub i (h.size ▸ hi) k hk (by simpa using hc)
      rw [h3] at h4
      cases h4
    · exact h'.complete e he i (h.size ▸ hi) k hk h1 h2
  keep := fun i y hy => h'.keep i y (h.keep i y hy)
  new := fun i y hy => by
    rcases h'.new i y hy with h1 | ⟨h1, h2, e, he, h3⟩
    · rcases h.new i y h1 with h1 | ⟨h1, h2, e, he, h3⟩
      · exact .inl h1
      · exact .inr ⟨h1, h2, e, .inl he, h3⟩
    · exact .inr ⟨h1, h2, e, .inr he, h3⟩
  all := fun e he => by
    rcases he with he | he
    · obtain ⟨y, ⟨i, hi, hy⟩, h1⟩ := h.all e he
      exact ⟨y, ⟨i, by rw [h'.bsize]; exact hi, h'.keep i y hy⟩, h1⟩
    · exact h'.all e he

theorem Proc.congr {L n : ℕ} {P Q : SievingPrime → Prop} {b b' : Vec Buckets} {S S' : Vec Byte}
    (h : Proc L n P b S b' S') (hPQ : ∀ e, P e ↔ Q e) : Proc L n Q b S b' S' := by
  have : P = Q := funext fun e => propext (hPQ e)
  rwa [← this]

theorem mediumPrime_ok {L n i : ℕ} {t : Vec Buckets × Vec Byte} {s : SievingPrime} (hn : n ≤ t.2.size)
    (hb : t.1.size = 64) (h : Entry W30 L s) (hi : s.wheelIndex = i) (hsp : s.sievingPrime ≤ spMax) :
    Ok (mediumPrime (i / 8) n i s t) (fun t' => Proc L n (fun e => e = s) t.1 t.2 t'.1 t'.2) := by
  obtain ⟨q0, h0⟩ := h
  have hp := h0.cop30 W30_good
  have hdiv := primeOf_div W30 s
  have hat := h0.pos
  rw [hi] at hat
  unfold mediumPrime
  rw [← hdiv]
  refine Ok.bind (mediumSwitch_ok hp hn (by have := h0.gt; omega) hat rfl) (fun r hr => ?_)
  obtain ⟨q, hw, hbd⟩ := hr
  obtain ⟨hst, hone⟩ := hw.one (lo := 0) (Nat.zero_le _) (mi0 := s.multipleIndex) (wi0 := s.wheelIndex) (by simpa using h0)
  have hmi := mi_lt s
  unfold spMax at hsp
  have hwi' := (hst.pos.elem W30_good hp).2.2
  rw [W30_size.1] at hwi'
  have hd := make_decode (sp := primeOf W30 s / 30) (mi := r.1) (wi := r.2.1) (by omega) (by omega) (by omega)
  have hpo : primeOf W30 (.make (primeOf W30 s / 30) r.1 r.2.1) = primeOf W30 s :=
    hst.pos.primeOf W30_good hp hd.1 hd.2.2
  refine Ok.bind (pushAt_ok (b := t.1) (by omega) _) (fun b' hb' => Ok.pure ?_)
  obtain ⟨b1, b2⟩ := hb'
  exact {
    bsize := b1
    size := hone.size
    sub := hone.sub
    sound := fun i hi k hk a1 a2 => ⟨s, rfl, hone.sound i hi k hk a1 a2⟩
    complete := fun e he j hj k hk a1 a2 => by
      subst he
      exact hone.complete j hj k hk (Nat.zero_le _) a1 a2
    keep := fun i y hy => (b2 i y).2 (.inl hy)
    new := fun i y hy => by
      rcases (b2 i y).1 hy with h1 | ⟨h1, h2⟩
      · exact .inl h1
      · subst h2
        refine .inr ⟨hd.2.2.trans h1.symm, ⟨q, ?_⟩, s, rfl, hpo⟩
        rw [hpo, hd.2.1, hd.2.2]
        exact hst
    all := fun e he => by
      subst he
      exact ⟨_, ⟨r.2.1, by dsimp only; omega, (b2 _ _).2 (.inr ⟨rfl, rfl⟩)⟩, hpo⟩ }

theorem mediumList_ok {L n i : ℕ} (l : List SievingPrime) {t : Vec Buckets × Vec Byte} (hn : n ≤ t.2.size)
    (hb : t.1.size = 64) (h : ∀ s ∈ l, Entry W30 L s ∧ s.wheelIndex = i ∧ s.sievingPrime ≤ spMax) :
    Ok (l.foldlM (fun t s => mediumPrime (i / 8) n i s t) t) (fun t' => Proc L n (fun e => e ∈ l) t.1 t.2 t'.1 t'.2) := by
  induction l generalizing t with
  | nil => exact Ok.pure (Proc.refl (by simp))
  | cons s l ih =>
    rw [List.foldlM_cons]
    have hs := h s (by simp)
    refine Ok.bind (mediumPrime_ok hn hb hs.1 hs.2.1 hs.2.2) (fun t' ht' => ?_)
    refine Ok.mono (ih (by rw [ht'.size]; exact hn) (by rw [ht'.bsize]; exact hb)
      (fun x hx => h x (by simp [hx]))) fun t'' ht'' => ?_
    exact (ht'.trans ht'').congr (fun e => by simp)

theorem mediumBuckets_ok {L n i : ℕ} (l : Buckets) {t : Vec Buckets × Vec Byte} (hn : n ≤ t.2.size)
    (hb : t.1.size = 64) (h : ∀ s ∈ l.flatten, Entry W30 L s ∧ s.wheelIndex = i ∧ s.sievingPrime ≤ spMax) :
    Ok (l.foldlM (fun t bucket => mediumBucket (i / 8) n bucket t) t)
      (fun t' => Proc L n (fun e => e ∈ l.flatten) t.1 t.2 t'.1 t'.2) := by
  induction l generalizing t with
  | nil => exact Ok.pure (Proc.refl (by simp))
  | cons b l ih =>
    rw [List.foldlM_cons]
    have hl : ∀ s ∈ b, Entry W30 L s ∧ s.wheelIndex = i ∧ s.sievingPrime ≤ spMax := fun s hs => h s (by simp [hs])
    refine Ok.bind (P := fun t' => Proc L n (fun e => e ∈ b) t.1 t.2 t'.1 t'.2) ?_ (fun t' ht' => ?_)
    · match b with
      | [] => exact Ok.pure (Proc.refl (by simp))
      | s :: b' =>
        unfold mediumBucket
        dsimp only
        rw [(hl s (by simp)).2.1]
        exact mediumList_ok _ hn hb hl
    · refine Ok.mono (ih (by rw [ht'.size]; exact hn) (by rw [ht'.bsize]; exact hb)
        (fun x hx => h x (by rw [List.flatten_cons, List.mem_append]; exact .inr hx))) fun t'' ht'' => ?_
      exact (ht'.trans ht'').congr (fun e => by simp)

/-- The lists of `EratMedium`: list `i` has the entries with wheel index `i`. -/
def Sorted (b : Vec Buckets) : Prop := b.size = 64 ∧ ∀ i < 64, ∀ y, inB b i y → y.wheelIndex = i

/-- **EratMedium::crossOff.** -/
theorem EratMedium_crossOff_ok {L n : ℕ} {D : ℕ → Prop} {S : Vec Byte} {s : EratMedium} (hn : n ≤ S.size)
    (h : Handles W30 L s.stop D (bmem s.buckets)) (hb : Sorted s.buckets) (hsp : ∀ p, D p → p / 30 ≤ spMax) :
    Ok (s.crossOff S n) (fun r => Handles W30 (L + 30 * n) s.stop D (bmem r.1.buckets) ∧ Sorted r.1.buckets ∧
      Crossed 30 L 0 n s.stop D S r.2 ∧ r.1 = { s with buckets := r.1.buckets }) := by
  unfold EratMedium.crossOff
  have hempty : ∀ i y, ¬ inB (Vec.mk' 64 [] : Vec Buckets) i y := by
    intro i y
    unfold inB
    rcases lt_or_ge i 64 with hi | hi
    · rw [Vec.get_mk' _ _ _ hi]
      simp
    · simp [Vec.get, Vec.mk', hi]
      intro x hx
      exact absurd hx List.not_mem_nil
  refine Ok.bind (forUp_ok (Inv := fun j (t : Vec Buckets × Vec Byte) =>
    Proc L n (fun e => ∃ i < j, inB s.buckets i e) (Vec.mk' 64 []) S t.1 t.2) (Proc.refl (by simp)) (Nat.zero_le _) ?_)
    (fun t ht => Ok.pure ?_)
  · rintro j ⟨b, S'⟩ _ hj hI
    dsimp only at hI ⊢
    rw [Vec.rd_ok (by rw [hb.1]; exact hj)]
    simp only [ok_bind]
    have hbs : b.size = 64 := by rw [hI.bsize, Vec.size_mk']
    refine Ok.mono (mediumBuckets_ok (L := L) (n := n) (s.buckets.get j) (t := (b, S')) (by
      dsimp only; rw [hI.size]; exact hn) hbs (fun x hx => ?_)) fun t ht => ?_
    · have h1 := h.entry x ⟨j, by rw [hb.1]; exact hj, hx⟩
      refine ⟨h1.1, hb.2 j hj x hx, ?_⟩
      have := hsp _ h1.2
      rwa [primeOf_div] at this
    · refine (hI.trans ht).congr (fun e => ?_)
      constructor
      · rintro (⟨i, hi, h1⟩ | h1)
        · exact ⟨i, by omega, h1⟩
        · exact ⟨j, by omega, h1⟩
      · rintro ⟨i, hi, h1⟩
        rcases Nat.lt_succ_iff_lt_or_eq.1 hi with hi | hi
        · exact .inl ⟨i, hi, h1⟩
        · subst hi
          exact .inr h1
  · have hPe : ∀ e, (∃ i < 64, inB s.buckets i e) ↔ bmem s.buckets e := by
      intro e
      unfold bmem
      rw [hb.1]
    have ht := ht.congr hPe
    refine ⟨⟨?_, fun p hp => ?_⟩, ⟨by rw [ht.bsize, Vec.size_mk'], fun i hi y hy => ?_⟩, ⟨ht.size, ht.sub, ?_, ?_⟩, rfl⟩
    · rintro y ⟨i, hi, hy⟩
      rcases ht.new i y hy with h1 | ⟨h1, h2, e, he, h3⟩
      · exact absurd h1 (hempty _ _)
      · exact ⟨h2, by rw [h3]; exact (h.entry e he).2⟩
    · rcases h.all p hp with h1 | ⟨e, he, h1⟩
      · exact .inl (h1.mono (by omega))
      · obtain ⟨y, hy, h2⟩ := ht.all e he
        exact .inr ⟨y, hy, h2.trans h1⟩
    · rcases ht.new i y hy with h1 | ⟨h1, -⟩
      · exact absurd h1 (hempty _ _)
      · exact h1
    · intro i hi k hk h1 h2
      obtain ⟨e, he, c, h3⟩ := ht.sound i hi k hk h1 h2
      exact ⟨_, (h.entry e he).2, c, h3⟩
    · rintro i hi' k hk a b hs ⟨p, hD, c, c1, c2, c3⟩
      rcases h.all p hD with h6 | ⟨e, he, h6⟩
      · have hbk := bv_range hk
        have := h6 c c1 c2 (by omega)
        omega
      · exact ht.complete e he i hi' k hk b ⟨c, by rw [h6]; exact ⟨c1, c2, c3⟩⟩

theorem EratMedium_add_ok {L p : ℕ} {D : ℕ → Prop} {s : EratMedium}
    (h : Handles W30 L s.stop D (bmem s.buckets)) (hb : Sorted s.buckets) (hp : p.Coprime 30) (hp1 : 1 < p)
    (hp2 : p ≤ 5 * 2 ^ 22)
    (hL : L % 30 = 0) (hL2 : L < 2 ^ 64) (hs : s.stop < 2 ^ 64) (hsq : p * p < L + 30 * 2 ^ 22 + 7) :
    Ok (s.add p L) (fun r => Handles W30 L s.stop (fun x => D x ∨ x = p) (bmem r.buckets) ∧ Sorted r.buckets ∧
      r = { s with buckets := r.buckets }) := by
  unfold EratMedium.add
  refine Ok.bind (Wheel_add_ok W30_good (stop := s.stop) hp hp1 (by omega) hL hL2 hs) (fun r hr => ?_)
  match r with
  | none =>
    refine Ok.pure ⟨⟨fun e he => ⟨(h.entry e he).1, .inl (h.entry e he).2⟩, fun x hx => ?_⟩, hb, rfl⟩
    rcases hx with hx | rfl
    · exact h.all x hx
    · exact .inl hr
  | some (mi, wi) =>
    obtain ⟨q, h1, h2, h3⟩ := hr
    have hpos := h1.pos.hpos
    have hbv := bv_range (kOf_lt (p * q))
    have hwi := (h1.pos.elem W30_good hp).2.2
    rw [W30_size.1] at hwi
    have hmi : mi < 2 ^ 23 := by
      rcases h3 with h3 | h3
      · rw [h3] at hpos hbv
        omega
      · omega
    have hd := make_decode (sp := p / 30) (mi := mi) (wi := wi) hmi (by omega) (by omega)
    have hpo : primeOf W30 (.make (p / 30) mi wi) = p := h1.pos.primeOf W30_good hp hd.1 hd.2.2
    have hent : Entry W30 L (.make (p / 30) mi wi) := ⟨q, by rw [hpo, hd.2.1, hd.2.2]; exact h1⟩
    dsimp only
    refine Ok.bind (pushAt_ok (by rw [hb.1]; omega) _) (fun b hb' => Ok.pure ?_)
    obtain ⟨b1, b2⟩ := hb'
    refine ⟨⟨?_, fun x hx => ?_⟩, ⟨b1.trans hb.1, fun i hi y hy => ?_⟩, rfl⟩
    · rintro e ⟨j, hj, he⟩
      rcases (b2 j e).1 he with h4 | ⟨h4, h5⟩
      · have := h.entry e ⟨j, by rw [← b1]; exact hj, h4⟩
        exact ⟨this.1, .inl this.2⟩
      · rw [h5]
        exact ⟨hent, .inr hpo⟩
    · rcases hx with hx | rfl
      · rcases h.all x hx with h4 | ⟨e, ⟨j, hj, h5⟩, he⟩
        · exact .inl h4
        · exact .inr ⟨e, ⟨j, by dsimp only; rw [b1]; exact hj, (b2 j e).2 (.inl h5)⟩, he⟩
      · exact .inr ⟨_, ⟨wi, by dsimp only; rw [b1, hb.1]; omega, (b2 _ _).2 (.inr ⟨rfl, rfl⟩)⟩, hpo⟩
    · rcases (b2 i y).1 hy with h4 | ⟨h4, h5⟩
      · exact hb.2 i hi y h4
      · rw [h5, h4]
        exact hd.2.2

end Psv
end PS
