import Verif.Proof.PsvCross

/-!
# EratBig crosses off exactly the multiples of its primes
-/

namespace PS
namespace Psv

/-- No bucket is empty. -/
def NoEmpty (b : Vec Buckets) : Prop := ∀ j < b.size, [] ∉ b.get j

theorem pushAt_noEmpty {b : Vec Buckets} {i : ℕ} (hi : i < b.size) (x : SievingPrime) (h : NoEmpty b) :
    Ok (pushAt b i x) (fun b' => NoEmpty b') := by
  unfold pushAt
  rw [Vec.rd_ok hi]
  simp only [ok_bind]
  rw [Vec.wr_ok hi]
  refine ⟨_, rfl, fun j hj => ?_⟩
  rw [Vec.size_set] at hj
  rw [Vec.get_set]
  have h1 := h j hj
  split
  · next hc =>
    obtain ⟨rfl, -⟩ := hc
    unfold Buckets.push
    cases hb : b.get i with
    | nil => simp
    | cons c cs =>
      rw [hb] at h1
      dsimp only
      split <;> simp at h1 ⊢ <;> tauto
  · exact h1

/-- The lists of buckets during a segment: `q` is the next multiple, the smaller ones are below `L` or crossed off. -/
structure RState (L ss : ℕ) (S : Vec Byte) (p q idx wi : ℕ) : Prop where
  cop : p.Coprime 210
  le : p ≤ q
  pos : At W210 L p q idx wi
  ready : ∀ c, p ≤ c → c < q → c.Coprime 210 → p * c < L + 7 ∨
    ∃ i < ss, ∃ k < 8, p * c = L + 30 * i + bv k ∧ bitAt S i k = false

/-- Invariant of `EratBig::crossOff`: the entries of `b` (list `j` belongs to the `j`-th segment from here) and those
of `pend` handle the primes `D`. -/
structure BInv (L e stop maxP : ℕ) (D : ℕ → Prop) (a a' : ℕ) (pend : List SievingPrime) (b : Vec Buckets)
    (S0 S : Vec Byte) : Prop where
  bsize : b.size = ((2 ^ e - 1 + (maxP / 30 * 10 + 10)) >>> e) + 1
  noEmpty : NoEmpty b
  size : S.size = S0.size
  sub : ∀ i < S0.size, ∀ k < 8, bitAt S i k = true → bitAt S0 i k = true
  sound : ∀ i < S0.size, ∀ k < 8, bitAt S0 i k = true → bitAt S i k = false → Struck 210 D (L + 30 * i + bv k)
  entry : ∀ j < b.size, ∀ y, inB b j y → D (primeOf W210 y) ∧ y.multipleIndex < 2 ^ e ∧
    (j = 0 → a' ≤ y.multipleIndex) ∧
    ∃ q, RState L (2 ^ e) S (primeOf W210 y) q (2 ^ e * j + y.multipleIndex) y.wheelIndex
  pendEntry : ∀ y ∈ pend, D (primeOf W210 y) ∧ y.multipleIndex < 2 ^ e ∧ a ≤ y.multipleIndex ∧
    ∃ q, RState L (2 ^ e) S (primeOf W210 y) q y.multipleIndex y.wheelIndex
  all : ∀ p, D p → Dead 210 L stop p ∨ (∃ j < b.size, ∃ y, inB b j y ∧ primeOf W210 y = p) ∨
    ∃ y ∈ pend, primeOf W210 y = p

theorem RState.mono {L ss p q idx wi : ℕ} {S S' : Vec Byte} (h : RState L ss S p q idx wi)
    (hs : ∀ i < ss, ∀ k < 8, bitAt S i k = false → bitAt S' i k = false) : RState L ss S' p q idx wi where
  cop := h.cop
  le := h.le
  pos := h.pos
  ready := fun c h1 h2 h3 => by
    rcases h.ready c h1 h2 h3 with h4 | ⟨i, hi, k, hk, h4, h5⟩
    · exact .inl h4
    · exact .inr ⟨i, hi, k, hk, h4, hs i hi k hk h5⟩

theorem W210_size : W210.size = 48 ∧ W210.modulo = 210 ∧ W210.wheel = wheel210 ∧ wheel210.size = 384 ∧
    (wheel210.get 0).nextMultipleFactor = 10 := ⟨rfl, rfl, rfl, by decide +kernel, by decide +kernel⟩

theorem big_prime_ok {L e stop maxP a a' : ℕ} {D : ℕ → Prop} {y : SievingPrime} {rest : List SievingPrime}
    {b : Vec Buckets} {S0 S : Vec Byte} {s : EratBig} (h : BInv L e stop maxP D a a' (y :: rest) b S0 S)
    (hl : s.log2SieveSize = e) (hm : s.moduloSieveSize = 2 ^ e - 1) (he : e ≤ 22) (hS : 2 ^ e ≤ S0.size)
    (hD : ∀ p, D p → 5 * 2 ^ e < p ∧ p ≤ maxP) (he3 : 6 ≤ 2 ^ e) (hP : maxP < 2 ^ 32) (ha : a' ≤ a + 1) :
    Ok (s.prime y (b, S)) (fun t => BInv L e stop maxP D a a' rest t.1 S0 t.2) := by
  obtain ⟨d1, d2, d3, q, hq⟩ := h.pendEntry y (by simp)
  obtain ⟨D1, D2⟩ := hD _ d1
  have h2e : 2 ^ e ≤ 2 ^ 22 := Nat.pow_le_pow_right (by norm_num) he
  have hdiv := primeOf_div W210 y
  have hp : (primeOf W210 y).Coprime 30 := Nat.Coprime.coprime_dvd_right (by norm_num) hq.cop
  obtain ⟨e1, e2, e3⟩ := hq.pos.elem W210_good hp
  rw [W210_size.1] at e3
  obtain ⟨wi', f1, f2, f3, f4, f5, f6⟩ := hq.pos.next W210_good hp
  generalize hpp : primeOf W210 y = p at *
  unfold EratBig.prime WheelT.unsetBit
  dsimp only
  rw [Vec.rd_ok e1]
  simp only [ok_bind]
  generalize hew : W210.wheel.get y.wheelIndex = ew at *
  have hsz : y.multipleIndex < S.size := by rw [h.size]; omega
  obtain ⟨S', hS', hrem⟩ := unset_rem (L := L) hsz (kOf_lt (p * q)) e2 hq.pos.hpos
  rw [hS']
  simp only [ok_bind, pure_eq_ok]
  rw [f1, Int.toNat_natCast, ← hdiv]
  have hfb : ew.nextMultipleFactor * (p / 30) ≤ 10 * (p / 30) := Nat.mul_le_mul_right _ f3
  have hfb2 : 1 * (p / 30) ≤ ew.nextMultipleFactor * (p / 30) := Nat.mul_le_mul_right _ f2
  obtain ⟨idx, hidx⟩ : ∃ idx, idx = y.multipleIndex + (ew.nextMultipleFactor * (p / 30) + ew.correct) := ⟨_, rfl⟩
  have hu : u64 (u64 (y.multipleIndex + ew.nextMultipleFactor * (p / 30)) + ew.correct) = idx := by
    unfold u64
    rw [Nat.mod_eq_of_lt (a := y.multipleIndex + _) (by omega), Nat.mod_eq_of_lt (by omega)]
    omega
  rw [hu]
  rw [← hidx] at f6
  unfold EratBig.store
  rw [hl, hm, Nat.and_two_pow_sub_one_eq_mod]
  have hpos2 : 0 < 2 ^ e := by omega
  have hjb : idx >>> e < b.size := by
    rw [h.bsize, Nat.lt_succ_iff, Nat.shiftRight_eq_div_pow, Nat.shiftRight_eq_div_pow]
    exact Nat.div_le_div_right (by omega)
  have hwi' := (f6.elem W210_good hp).2.2
  rw [W210_size.1] at hwi'
  have hmod := Nat.mod_lt idx hpos2
  have hd := make_decode (sp := p / 30) (mi := idx % 2 ^ e) (wi := wi') (by omega) (by omega) (by omega)
  have hpo : primeOf W210 (.make (p / 30) (idx % 2 ^ e) wi') = p := f6.primeOf W210_good hp hd.1 hd.2.2
  refine Ok.bind (Ok.and (pushAt_ok hjb _) (pushAt_noEmpty hjb (.make (p / 30) (idx % 2 ^ e) wi') h.noEmpty))
    (fun b' hb' => Ok.pure ?_)
  obtain ⟨⟨b1, b2⟩, b3⟩ := hb'
  have hfalse : ∀ i < 2 ^ e, ∀ k < 8, bitAt S i k = false → bitAt S' i k = false := by
    intro i hi k hk hb
    by_contra hc
    have := ((hrem.2 i (by rw [h.size]; omega) k hk).1 (by simpa using hc)).1
    rw [hb] at this
    cases this
  have hnew : RState L (2 ^ e) S' p (q + ew.nextMultipleFactor) idx wi' := by
    refine ⟨hq.cop, by have := hq.le; omega, f6, fun c c1 c2 c3 => ?_⟩
    rcases lt_trichotomy c q with h1 | h1 | h1
    · exact (hq.mono hfalse).ready c c1 h1 c3
    · subst h1
      refine .inr ⟨y.multipleIndex, d2, kOf (p * c), kOf_lt _, hq.pos.hpos.symm, ?_⟩
      by_contra hc
      exact ((hrem.2 _ hsz _ (kOf_lt (p * c))).1 (by simpa using hc)).2 hq.pos.hpos
    · exact absurd c3 (f5 c h1 c2)
  exact {
    bsize := b1.trans h.bsize
    noEmpty := b3
    size := hrem.1.trans h.size
    sub := fun i hi k hk hb => h.sub i hi k hk ((hrem.2 i (by rw [h.size]; exact hi) k hk).1 hb).1
    sound := fun i hi k hk g1 g2 => by
      cases hb : bitAt S i k
      · exact h.sound i hi k hk g1 hb
      · have g3 := hrem.2 i (by rw [h.size]; exact hi) k hk
        rw [g2] at g3
        have : L + 30 * i + bv k = p * q := by
          by_contra hc
          have := g3.2 ⟨hb, hc⟩
          cases this
        exact ⟨p, d1, q, hq.le, hq.pos.hq, this⟩
    entry := fun j hj x hx => by
      rcases (b2 j x).1 hx with g1 | ⟨g1, g2⟩
      · obtain ⟨g2, g3, g4, q', g5⟩ := h.entry j (by rw [← b1]; exact hj) x g1
        exact ⟨g2, g3, g4, q', g5.mono hfalse⟩
      · subst g2
        rw [hpo, hd.2.1, hd.2.2]
        rw [Nat.shiftRight_eq_div_pow] at g1
        have hdm := Nat.div_add_mod idx (2 ^ e)
        refine ⟨d1, hmod, fun hj0 => ?_, q + ew.nextMultipleFactor, ?_⟩
        · rw [g1] at hj0
          rw [hj0] at hdm
          omega
        · rw [g1, hdm]
          exact hnew
    pendEntry := fun x hx => by
      obtain ⟨g2, g3, g4, q', g5⟩ := h.pendEntry x (by simp [hx])
      exact ⟨g2, g3, g4, q', g5.mono hfalse⟩
    all := fun r hr => by
      rcases h.all r hr with g1 | ⟨j, hj, x, hx, g1⟩ | ⟨x, hx, g1⟩
      · exact .inl g1
      · exact .inr (.inl ⟨j, by dsimp only; rw [b1]; exact hj, x, (b2 j x).2 (.inl hx), g1⟩)
      · rcases List.mem_cons.1 hx with rfl | hx
        · refine .inr (.inl ⟨idx >>> e, by dsimp only; rw [b1]; exact hjb, _, (b2 _ _).2 (.inr ⟨rfl, rfl⟩), ?_⟩)
          rw [hpo, ← g1, hpp]
        · exact .inr (.inr ⟨x, hx, g1⟩) }

theorem big_list_ok {L e stop maxP a a' : ℕ} {D : ℕ → Prop} {S0 : Vec Byte} {s : EratBig} (l : List SievingPrime)
    {rest : List SievingPrime} {t : Vec Buckets × Vec Byte} (h : BInv L e stop maxP D a a' (l ++ rest) t.1 S0 t.2)
    (hl : s.log2SieveSize = e) (hm : s.moduloSieveSize = 2 ^ e - 1) (he : e ≤ 22) (hS : 2 ^ e ≤ S0.size)
    (hD : ∀ p, D p → 5 * 2 ^ e < p ∧ p ≤ maxP) (he3 : 6 ≤ 2 ^ e) (hP : maxP < 2 ^ 32) (ha : a' ≤ a + 1) :
    Ok (l.foldlM (fun t pr => s.prime pr t) t) (fun t => BInv L e stop maxP D a a' rest t.1 S0 t.2) := by
  induction l generalizing t with
  | nil => exact Ok.pure h
  | cons y l ih =>
    rw [List.foldlM_cons]
    obtain ⟨b, S⟩ := t
    exact Ok.bind (big_prime_ok h hl hm he hS hD he3 hP ha) (fun t' ht' => ih ht')

theorem big_lists_ok {L e stop maxP a a' : ℕ} {D : ℕ → Prop} {S0 : Vec Byte} {s : EratBig} (l : Buckets)
    {t : Vec Buckets × Vec Byte} (h : BInv L e stop maxP D a a' l.flatten t.1 S0 t.2)
    (hl : s.log2SieveSize = e) (hm : s.moduloSieveSize = 2 ^ e - 1) (he : e ≤ 22) (hS : 2 ^ e ≤ S0.size)
    (hD : ∀ p, D p → 5 * 2 ^ e < p ∧ p ≤ maxP) (he3 : 6 ≤ 2 ^ e) (hP : maxP < 2 ^ 32) (ha : a' ≤ a + 1) :
    Ok (l.foldlM (fun t bucket => bucket.foldlM (fun t pr => s.prime pr t) t) t)
      (fun t => BInv L e stop maxP D a a' [] t.1 S0 t.2) := by
  induction l generalizing t with
  | nil => exact Ok.pure h
  | cons y l ih =>
    rw [List.foldlM_cons]
    rw [List.flatten_cons] at h
    exact Ok.bind (big_list_ok y h hl hm he hS hD he3 hP ha) (fun t' ht' => ih ht')

theorem big_rounds_ok {L e stop maxP : ℕ} {D : ℕ → Prop} {S0 : Vec Byte} {s : EratBig}
    (h : BInv L e stop maxP D 0 0 [] s.buckets S0 S0)
    (hl : s.log2SieveSize = e) (hm : s.moduloSieveSize = 2 ^ e - 1) (he : e ≤ 22) (hS : 2 ^ e ≤ S0.size)
    (hD : ∀ p, D p → 5 * 2 ^ e < p ∧ p ≤ maxP) (he3 : 6 ≤ 2 ^ e) (hP : maxP < 2 ^ 32) :
    Ok (s.rounds S0) (fun t => BInv L e stop maxP D 0 0 [] t.1 S0 t.2 ∧ t.1.get 0 = []) := by
  unfold EratBig.rounds
  refine loop_okm (fun n (t : Vec Buckets × Vec Byte) => n ≤ 2 ^ e ∧
    BInv L e stop maxP D (2 ^ e - n) (2 ^ e - n) [] t.1 S0 t.2) _ (2 ^ e) ⟨le_refl _, ?_⟩ (by omega) ?_
  · rw [Nat.sub_self]
    exact h
  · rintro n ⟨b, S⟩ ⟨hn, hI⟩
    dsimp only at hI ⊢
    have hb0 : 0 < b.size := by rw [hI.bsize]; exact Nat.succ_pos _
    rw [Vec.rd_ok hb0]
    simp only [ok_bind]
    cases hg : b.get 0 with
    | nil =>
      refine Ok.pure ⟨?_, hg⟩
      exact { hI with
        entry := fun j hj y hy => by
          obtain ⟨g1, g2, g3, g4⟩ := hI.entry j hj y hy
          exact ⟨g1, g2, fun _ => Nat.zero_le _, g4⟩
        pendEntry := fun y hy => by simp at hy }
    | cons c cs =>
      dsimp only
      rw [Vec.wr_ok hb0]
      simp only [ok_bind]
      have hc : c ≠ [] := fun hc => hI.noEmpty 0 hb0 (by rw [hg, hc]; simp)
      obtain ⟨y0, hy0⟩ := List.exists_mem_of_ne_nil c hc
      obtain ⟨-, g2, g3, -⟩ := hI.entry 0 hb0 y0 (by unfold inB; rw [hg]; simp [hy0])
      have hlt := g3 rfl
      have hset : ∀ j y, inB (b.set 0 []) j y ↔ j ≠ 0 ∧ inB b j y := by
        intro j y
        unfold inB
        rw [Vec.get_set]
        split
        · next hj => simp [← hj.1]
        · next hj =>
          have : j ≠ 0 := fun h0 => hj ⟨h0.symm, hb0⟩
          simp [this]
      have hI2 : BInv L e stop maxP D (2 ^ e - n) (2 ^ e - (n - 1)) (c :: cs).flatten (b.set 0 []) S0 S := {
        bsize := by rw [Vec.size_set]; exact hI.bsize
        noEmpty := fun j hj => by
          rw [Vec.size_set] at hj
          rw [Vec.get_set]
          split
          · simp
          · exact hI.noEmpty j hj
        size := hI.size
        sub := hI.sub
        sound := hI.sound
        entry := fun j hj y hy => by
          rw [Vec.size_set] at hj
          obtain ⟨h1, h2⟩ := (hset j y).1 hy
          obtain ⟨k1, k2, -, k4⟩ := hI.entry j hj y h2
          exact ⟨k1, k2, fun h0 => absurd h0 h1, k4⟩
        pendEntry := fun y hy => by
          obtain ⟨k1, k2, k3, k4⟩ := hI.entry 0 hb0 y (by unfold inB; rw [hg]; exact hy)
          rw [Nat.mul_zero, Nat.zero_add] at k4
          exact ⟨k1, k2, k3 rfl, k4⟩
        all := fun p hp => by
          rcases hI.all p hp with k | ⟨j, hj, y, hy, k⟩ | ⟨y, hy, k⟩
          · exact .inl k
          · by_cases h0 : j = 0
            · subst h0
              unfold inB at hy
              rw [hg] at hy
              exact .inr (.inr ⟨y, hy, k⟩)
            · exact .inr (.inl ⟨j, by rw [Vec.size_set]; exact hj, y, (hset j y).2 ⟨h0, hy⟩, k⟩)
          · simp at hy }
      refine Ok.bind (big_lists_ok (t := (b.set 0 [], S)) (c :: cs) hI2 hl hm he hS hD he3 hP (by omega))
        (fun t ht => Ok.pure ?_)
      refine ⟨n - 1, by omega, by omega, ?_⟩
      exact { ht with pendEntry := fun y hy => by simp at hy }

/-- What `EratBig` keeps between segments. -/
structure BigOK (L e maxP : ℕ) (D : ℕ → Prop) (s : EratBig) : Prop where
  log : s.log2SieveSize = e
  mod : s.moduloSieveSize = 2 ^ e - 1
  bsize : s.buckets.size = ((2 ^ e - 1 + (maxP / 30 * 10 + 10)) >>> e) + 1
  noEmpty : NoEmpty s.buckets
  entry : ∀ j < s.buckets.size, ∀ y, inB s.buckets j y → D (primeOf W210 y) ∧ y.multipleIndex < 2 ^ e ∧
    ∃ q, State W210 L (primeOf W210 y) q (2 ^ e * j + y.multipleIndex) y.wheelIndex
  all : ∀ p, D p → Dead 210 L s.stop p ∨ ∃ j < s.buckets.size, ∃ y, inB s.buckets j y ∧ primeOf W210 y = p

/-- **EratBig::crossOff.** -/
theorem EratBig_crossOff_ok {L e maxP : ℕ} {D : ℕ → Prop} {S : Vec Byte} {s : EratBig} (h : BigOK L e maxP D s)
    (he : e ≤ 22) (hS : 2 ^ e ≤ S.size)
    (hD : ∀ p, D p → 5 * 2 ^ e < p ∧ p ≤ maxP) (he3 : 6 ≤ 2 ^ e) (hP : maxP < 2 ^ 32) :
    Ok (s.crossOff S) (fun r => BigOK (L + 30 * 2 ^ e) e maxP D r.1 ∧ Crossed 210 L 0 (2 ^ e) s.stop D S r.2 ∧
      r.1 = { s with buckets := r.1.buckets }) := by
  unfold EratBig.crossOff
  have h0 : BInv L e s.stop maxP D 0 0 [] s.buckets S S := {
    bsize := h.bsize
    noEmpty := h.noEmpty
    size := rfl
    sub := fun _ _ _ _ h => h
    sound := fun _ _ _ _ h h' => by rw [h] at h'; cases h'
    entry := fun j hj y hy => by
      obtain ⟨g1, g2, q, g3⟩ := h.entry j hj y hy
      exact ⟨g1, g2, fun _ => Nat.zero_le _, q, g3.cop, g3.le, g3.pos, fun c c1 c2 c3 => .inl (g3.ready c c1 c2 c3)⟩
    pendEntry := fun y hy => by simp at hy
    all := fun p hp => by
      rcases h.all p hp with h1 | h1
      · exact .inl h1
      · exact .inr (.inl h1) }
  refine Ok.bind (big_rounds_ok h0 h.log h.mod he hS hD he3 hP) (fun t ht => Ok.pure ?_)
  obtain ⟨hI, hz⟩ := ht
  have hrot : ∀ j < t.1.size, ∀ y, inB (rotate1 t.1) j y ↔ j + 1 < t.1.size ∧ inB t.1 (j + 1) y := by
    intro j hj y
    unfold inB rotate1
    rw [Vec.get_ofFn _ _ _ hj]
    split
    · next h1 => simp [h1]
    · next h1 => rw [hz]; simp [h1]
  have hrs : (rotate1 t.1).size = t.1.size := by unfold rotate1; rw [Vec.size_ofFn]
  have hgt : ∀ p, D p → 1 < p := fun p hp => by have := hD p hp; omega
  have hbig : ∀ i < 2 ^ e, ∀ k < 8, L + 30 * i + bv k < L + 30 * 2 ^ e + 7 := fun i hi k hk => by
    have := bv_range hk
    omega
  refine ⟨⟨h.log, h.mod, by dsimp only; rw [hrs]; exact hI.bsize, fun j hj => ?_, fun j hj y hy => ?_, fun p hp => ?_⟩,
    ⟨hI.size, hI.sub, hI.sound, ?_⟩, rfl⟩
  · dsimp only at hj ⊢
    rw [hrs] at hj
    unfold rotate1
    rw [Vec.get_ofFn _ _ _ hj]
    split
    · next h1 => exact hI.noEmpty _ h1
    · rw [hz]
      simp
  · dsimp only at hj hy
    rw [hrs] at hj
    obtain ⟨h1, h2⟩ := (hrot j hj y).1 hy
    obtain ⟨g1, g2, -, q, g3⟩ := hI.entry (j + 1) h1 y h2
    have hre := g3.pos.rebase (n := 2 ^ e) (by rw [Nat.mul_add]; omega)
    rw [show 2 ^ e * (j + 1) + y.multipleIndex - 2 ^ e = 2 ^ e * j + y.multipleIndex by rw [Nat.mul_add]; omega] at hre
    refine ⟨g1, g2, q, g3.cop, hgt _ g1, g3.le, hre, fun c c1 c2 c3 => ?_⟩
    rcases g3.ready c c1 c2 c3 with g4 | ⟨i, hi, k, hk, g4, -⟩
    · omega
    · rw [g4]
      exact hbig i hi k hk
  · rcases hI.all p hp with g1 | ⟨j, hj, y, hy, g1⟩ | ⟨y, hy, g1⟩
    · exact .inl (g1.mono (by omega))
    · right
      have hj0 : j ≠ 0 := by
        rintro rfl
        unfold inB at hy
        rw [hz] at hy
        simp at hy
      refine ⟨j - 1, by dsimp only; rw [hrs]; omega, y, (hrot _ (by omega) y).2 ⟨by omega, ?_⟩, g1⟩
      rwa [Nat.sub_add_cancel (by omega)]
    · simp at hy
  · rintro i hi k hk - b hs ⟨p, hp, c, c1, c2, c3⟩
    have hbk := bv_range hk
    rcases hI.all p hp with g1 | ⟨j, hj, y, hy, g1⟩ | ⟨y, hy, g1⟩
    · have := g1 c c1 c2 (by omega)
      omega
    · have hj0 : j ≠ 0 := by
        rintro rfl
        unfold inB at hy
        rw [hz] at hy
        simp at hy
      obtain ⟨-, -, -, q, g3⟩ := hI.entry j hj y hy
      rw [g1] at g3
      have hpos := g3.pos.hpos
      have hb2 := bv_range (kOf_lt (p * q))
      have h1 : 2 ^ e * 1 ≤ 2 ^ e * j := Nat.mul_le_mul_left _ (by omega)
      have hcq : c < q := by
        by_contra hc
        have h2 : p * q ≤ p * c := Nat.mul_le_mul_left _ (by omega)
        have := hbig i b k hk
        omega
      rcases g3.ready c c1 hcq c2 with g4 | ⟨i', hi', k', hk', g4, g5⟩
      · omega
      · obtain ⟨r1, r2⟩ := val_inj (i := i) (j := i') hk hk' (by omega)
        rw [r1, r2]
        exact g5
    · simp at hy

theorem EratBig_add_ok {L e maxP p : ℕ} {D : ℕ → Prop} {s : EratBig} (h : BigOK L e maxP D s) (he : e ≤ 22)
    (he3 : 6 ≤ 2 ^ e) (hP : maxP < 2 ^ 32) (hp : p.Coprime 210) (hp1 : 1 < p) (hp2 : p ≤ maxP)
    (hL : L % 30 = 0) (hL2 : L < 2 ^ 64) (hs : s.stop < 2 ^ 64) (hsq : p * p < L + 30 * 2 ^ e + 7) :
    Ok (s.add p L) (fun r => BigOK L e maxP (fun x => D x ∨ x = p) r ∧ r = { s with buckets := r.buckets }) := by
  unfold EratBig.add
  have hp30 : p.Coprime 30 := Nat.Coprime.coprime_dvd_right (by norm_num) hp
  have h2e : 2 ^ e ≤ 2 ^ 22 := Nat.pow_le_pow_right (by norm_num) he
  refine Ok.bind (Wheel_add_ok W210_good (stop := s.stop) hp hp1 (by omega) hL hL2 hs) (fun r hr => ?_)
  match r with
  | none =>
    refine Ok.pure ⟨{ h with
      entry := fun j hj y hy => by
        obtain ⟨g1, g2⟩ := h.entry j hj y hy
        exact ⟨.inl g1, g2⟩
      all := fun x hx => by
        rcases hx with hx | rfl
        · exact h.all x hx
        · exact .inl hr }, rfl⟩
  | some (mi, wi) =>
    obtain ⟨q, h1, h2, h3⟩ := hr
    have hpos := h1.pos.hpos
    have hbv := bv_range (kOf_lt (p * q))
    have hwi := (h1.pos.elem W210_good hp30).2.2
    rw [W210_size.1] at hwi
    have hmi : mi ≤ 2 ^ e - 1 + (maxP / 30 * 10 + 10) := by
      rcases h3 with h3 | h3
      · rw [h3] at hpos hbv
        omega
      · omega
    have hpos2 : 0 < 2 ^ e := by omega
    have hmod := Nat.mod_lt mi hpos2
    have hd := make_decode (sp := p / 30) (mi := mi % 2 ^ e) (wi := wi) (by omega) (by omega) (by omega)
    have hpo : primeOf W210 (.make (p / 30) (mi % 2 ^ e) wi) = p := h1.pos.primeOf W210_good hp30 hd.1 hd.2.2
    have hjb : mi >>> e < s.buckets.size := by
      rw [h.bsize, Nat.lt_succ_iff, Nat.shiftRight_eq_div_pow, Nat.shiftRight_eq_div_pow]
      exact Nat.div_le_div_right hmi
    have hst : s.store s.buckets (p / 30) mi wi =
        pushAt s.buckets (mi >>> e) (.make (p / 30) (mi % 2 ^ e) wi) := by
      unfold EratBig.store
      rw [h.log, h.mod, Nat.and_two_pow_sub_one_eq_mod]
    dsimp only
    rw [hst]
    refine Ok.bind (Ok.and (pushAt_ok hjb _) (pushAt_noEmpty hjb (.make (p / 30) (mi % 2 ^ e) wi) h.noEmpty))
      (fun b' hb' => Ok.pure ?_)
    obtain ⟨⟨b1, b2⟩, b3⟩ := hb'
    refine ⟨⟨h.log, h.mod, b1.trans h.bsize, b3, fun j hj x hx => ?_, fun x hx => ?_⟩, rfl⟩
    · rcases (b2 j x).1 hx with g1 | ⟨g1, g2⟩
      · obtain ⟨g2, g3⟩ := h.entry j (by rw [← b1]; exact hj) x g1
        exact ⟨.inl g2, g3⟩
      · subst g2
        rw [hpo, hd.2.1, hd.2.2]
        rw [Nat.shiftRight_eq_div_pow] at g1
        refine ⟨.inr rfl, hmod, q, ?_⟩
        rw [g1, Nat.div_add_mod]
        exact h1
    · rcases hx with hx | rfl
      · rcases h.all x hx with g1 | ⟨j, hj, y, hy, g1⟩
        · exact .inl g1
        · exact .inr ⟨j, by dsimp only; rw [b1]; exact hj, y, (b2 j y).2 (.inl hy), g1⟩
      · exact .inr ⟨mi >>> e, by dsimp only; rw [b1]; exact hjb, _, (b2 _ _).2 (.inr ⟨rfl, rfl⟩), hpo⟩

theorem ilog2_pow : ∀ e < 23, ilog2 (2 ^ e) = e := by decide +kernel

theorem EratBig_init_ok {L e maxP stop : ℕ} {s : EratBig} (he : e ≤ 22) :
    Ok (s.init stop (2 ^ e) maxP) (fun r => BigOK L e maxP (fun _ => False) r ∧ r.stop = stop ∧ r.enabled = true) := by
  unfold EratBig.init
  rw [ilog2_pow e (by omega)]
  rw [Vec.rd_ok (by rw [W210_size.2.2.1, W210_size.2.2.2.1]; norm_num)]
  simp only [ok_bind]
  rw [W210_size.2.2.1, W210_size.2.2.2.2]
  refine Ok.pure ⟨⟨rfl, rfl, by rw [Vec.size_mk'], fun j hj => ?_, fun j hj y hy => ?_, fun p hp => hp.elim⟩, rfl, rfl⟩
  · dsimp only at hj ⊢
    rw [Vec.size_mk'] at hj
    rw [Vec.get_mk' _ _ _ hj]
    simp
  · dsimp only at hj hy
    rw [Vec.size_mk'] at hj
    unfold inB at hy
    rw [Vec.get_mk' _ _ _ hj] at hy
    simp at hy

end Psv
end PS
