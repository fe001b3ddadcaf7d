import Verif.Model.PsvPoolIter
import Verif.Proof.PsvPool
import Verif.Proof.PsvIter

/-!
# The iterator with the memory pool gives what the iterator on lists gives
-/

namespace PS.Psv.Mem

/-- The state without open lists, apart from `ptrs`; at most `c` sieving primes. -/
abbrev Rel0 (al : Alloc) (T c n : ℕ) (pool : Pool) (ptrs : Vec ℕ) (b : Vec Buckets) : Prop :=
  ∀ S, Rel al T c n (fun _ => 0) (fun _ => []) 0 [] ⟨pool, ptrs, S⟩ (b, S)

theorem rel_new {al : Alloc} {T : ℕ} {mem : ℕ → Bkt} {n : ℕ} : Rel0 al T 0 n { mem := mem } (Vec.mk' n 0) (Vec.mk' n []) :=
  fun _ => rel_init

theorem Rel0.mono {al : Alloc} {T c c' n : ℕ} {pool : Pool} {ptrs : Vec ℕ} {b : Vec Buckets} (h : Rel0 al T c n pool ptrs b) (hc : c ≤ c') :
    Rel0 al T c' n pool ptrs b := fun S => (h S).mono hc

theorem Rel.to0 {al : Alloc} {T c n : ℕ} {t : St} {b : Vec Buckets} {S : Vec Byte} (h : Rel al T c n (fun _ => 0) (fun _ => []) 0 [] t (b, S)) :
    Rel0 al T c n t.pool t.ptrs b := fun _ => ⟨rfl, h.size, h.cnt, h.inv⟩

/-- The object with lists of buckets instead of pointers. -/
def PErat.abs (e : PErat) (mb bb : Vec Buckets) : Erat :=
  { e.er with medium := { e.er.medium with buckets := mb }, big := { e.er.big with buckets := bb } }

/-- A pool that asks for memory has got at most 128 GiB. -/
def poolMax : ℕ := 128 * 1024 ^ 3

/-- The number of lists of EratBig. -/
def maxLists : ℕ := 2 ^ 18

theorem cap_medium {c : ℕ} (hc : c ≤ 2 ^ 32) : cap 128 (c + 1022) ≤ poolMax := by
  unfold cap poolMax
  omega

theorem cap_big {c n : ℕ} (hc : c ≤ 2 ^ 32) (hn : n ≤ maxLists) : cap (2 * n) (c + 1022) ≤ poolMax := by
  unfold cap poolMax
  unfold maxLists at hn
  omega

/-- `new` is sound, and its failures below `poolMax` are instances of `F`. -/
def AllocOK (F : Prop) (al : Alloc) : Prop := al.Valid ∧ (Refused poolMax al → F)

/-- A new object. -/
structure Fresh (F : Prop) (e : PErat) (s : Erat) : Prop where
  mAl : AllocOK F e.mAl
  bAl : AllocOK F e.bAl
  mP : ∃ mem, e.mPool = { mem := mem }
  bP : ∃ mem, e.bPool = { mem := mem }
  mV : e.mPtrs = Vec.mk' 64 0
  bV : e.bPtrs = Vec.mk' 0 0
  eq : e.er = s
  med : s.medium = {}
  big : s.big = {}
  high : e.er.segmentHigh ≤ max64

/-- The pointers of `e` stand for the lists of `s`, which hold at most `c` sieving primes; all else is equal. -/
structure RErat (F : Prop) (c : ℕ) (e : PErat) (s : Erat) : Prop where
  mAl : AllocOK F e.mAl
  bAl : AllocOK F e.bAl
  m : Rel0 e.mAl poolMax c 64 e.mPool e.mPtrs s.medium.buckets
  b : ∃ n ≤ maxLists, Rel0 e.bAl poolMax c n e.bPool e.bPtrs s.big.buckets
  high : e.er.segmentHigh ≤ max64
  eq : s = e.abs s.medium.buckets s.big.buckets

theorem Fresh.rel {F : Prop} {e : PErat} {s : Erat} (h : Fresh F e s) : RErat F 0 e s := by
  obtain ⟨mm, hm⟩ := h.mP
  obtain ⟨bm, hb⟩ := h.bP
  have e1 := h.med
  have e2 := h.big
  have e3 := h.eq
  refine ⟨h.mAl, h.bAl, ?_, ⟨0, Nat.zero_le _, ?_⟩, h.high, ?_⟩
  · rw [hm, h.mV, h.med]
    exact rel_new
  · rw [hb, h.bV, h.big]
    exact rel_new
  · subst e3
    rfl

theorem fresh_make {F : Prop} {er : Erat} {hm hb : Heap} (h1 : AllocOK F hm.al) (h2 : AllocOK F hb.al) (h3 : er.medium = {})
    (h4 : er.big = {}) (h5 : er.segmentHigh ≤ max64) : Fresh F (PErat.make er hm hb) er :=
  ⟨h1, h2, ⟨_, rfl⟩, ⟨_, rfl⟩, rfl, rfl, rfl, h3, h4, h5⟩

theorem Sim.weaken {F G : Prop} {α β : Type} {m : M α} {m' : M β} {R : α → β → Prop} (h : Sim F m m' R) (hFG : F → G) : Sim G m m' R := by
  rcases h with h | h
  · exact Or.inl ⟨h.1, hFG h.2⟩
  · exact Or.inr h

theorem Sim.ite {F : Prop} {α β : Type} {p : Prop} [Decidable p] {m n : M α} {m' n' : M β} {R : α → β → Prop} (h1 : p → Sim F m m' R)
    (h2 : ¬ p → Sim F n n' R) : Sim F (if p then m else n) (if p then m' else n') R := by
  by_cases h : p
  · rw [if_pos h, if_pos h]
    exact h1 h
  · rw [if_neg h, if_neg h]
    exact h2 h

theorem Sim.eq {F : Prop} {α : Type} {m : M α} : Sim F m m (fun a b => a = b) := by
  cases m with
  | error e => exact Or.inr (Or.inl ⟨e, rfl, rfl⟩)
  | ok a => exact Or.inr (Or.inr ⟨a, a, rfl, rfl, rfl⟩)

/-! ## Erat -/

theorem checkedAdd_max (x y : ℕ) : checkedAdd x y ≤ max64 := by
  unfold checkedAdd
  split <;> omega

theorem init_sim {F : Prop} {env : Env} {e : PErat} {s : Erat} (h : Fresh F e s) (start : ℕ) {stop sieveSize : ℕ} (hstop : stop < 2 ^ 64)
    (hsize : sieveSize < 2 ^ 64) (pre : PreSieve) :
    Sim F (e.init env start stop sieveSize pre) (s.init env start stop sieveSize pre) (fun a b => RErat F 0 a.1 b.1 ∧ a.2 = b.2) := by
  obtain ⟨mm, hm⟩ := h.mP
  obtain ⟨bm, hb⟩ := h.bP
  have e3 := h.eq
  subst e3
  unfold PErat.init
  by_cases hs : start > stop
  · have : e.er.init env start stop sieveSize pre = pure (e.er, pre) := by
      unfold Erat.init
      rw [if_pos hs]
    rw [this, if_pos hs]
    exact Sim.pure ⟨h.rel, rfl⟩
  · rw [if_neg hs]
    unfold Erat.init
    rw [if_neg hs]
    simp only [bind_assoc, pure_bind]
    refine Sim.same (fun pre => Sim.same (fun segmentLow => ?_))
    unfold Erat.initErat
    simp only [bind_assoc, pure_bind]
    cases hq : isqrt env stop with
    | error err => exact Or.inr (Or.inl ⟨err, rfl, rfl⟩)
    | ok sq =>
      simp only [ok_bind]
      cases hsm : eratSmallMax (getL1CacheSize env (initSieveSize sieveSize)) with
      | error err => exact Or.inr (Or.inl ⟨err, rfl, rfl⟩)
      | ok sm =>
      cases hmm : eratMediumMax (initSieveSize sieveSize) with
      | error err => exact Or.inr (Or.inl ⟨err, rfl, rfl⟩)
      | ok me =>
      simp only [ok_bind]
      have hbig : ∀ (b : EratBig) (x : EratBig), b.init stop (initSieveSize sieveSize) sq = .ok x →
          ∃ n ≤ maxLists, x.buckets = Vec.mk' n [] := by
        intro b x hx
        obtain ⟨ex, he1, he2, hex⟩ := initSieveSize_ok hsize
        rw [isqrt_ok env hstop] at hq
        have hsq := sqrt_lt_32 hstop
        rw [Except.ok.inj hq] at hsq
        unfold EratBig.init at hx
        cases hw : (W210.wheel.rd 0) with
        | error err => rw [hw] at hx; cases hx
        | ok w =>
          rw [hw] at hx
          obtain rfl := Except.ok.inj hx
          rw [Vec.rd_ok (by rw [W210_size.2.2.1, W210_size.2.2.2.1]; norm_num)] at hw
          obtain rfl := Except.ok.inj hw
          refine ⟨_, ?_, rfl⟩
          rw [W210_size.2.2.1, W210_size.2.2.2.2, hex, ilog2_pow ex (by omega), Nat.shiftRight_eq_div_pow]
          unfold maxLists
          have hp : 2 ^ 13 ≤ 2 ^ ex := Nat.pow_le_pow_right (by norm_num) he1
          generalize 2 ^ ex = P at hp ⊢
          have : (P - 1 + (sq / 30 * 10 + 10)) / P ≤ 1 + (sq / 30 * 10 + 10) / 2 ^ 13 := by
            calc (P - 1 + (sq / 30 * 10 + 10)) / P ≤ (P + (sq / 30 * 10 + 10)) / P := Nat.div_le_div_right (by omega)
              _ = 1 + (sq / 30 * 10 + 10) / P := by rw [Nat.add_div_left _ (by omega)]; ring
              _ ≤ 1 + (sq / 30 * 10 + 10) / 2 ^ 13 := Nat.add_le_add_left (Nat.div_le_div_left hp (by norm_num)) 1
          omega
      by_cases hc : sq > me
      · simp only [hc, if_true]
        cases hi : e.er.big.init stop (initSieveSize sieveSize) sq with
        | error err => exact Or.inr (Or.inl ⟨err, rfl, rfl⟩)
        | ok x =>
          simp only [ok_bind]
          obtain ⟨n, hnl, hn⟩ := hbig _ _ hi
          refine Sim.pure ⟨⟨h.mAl, h.bAl, ?_, ⟨n, hnl, ?_⟩, (min_le_left _ _).trans (checkedAdd_max _ _), rfl⟩, rfl⟩
          · have e1 : (if sq > sm then Vec.mk' 64 0 else e.mPtrs) = Vec.mk' 64 0 := by
              rw [h.mV, ite_self]
            have e2 : (if sq > sm then e.er.medium.init stop else e.er.medium).buckets = Vec.mk' 64 [] := by
              rw [h.med]
              split <;> rfl
            show Rel0 e.mAl poolMax 0 64 e.mPool (if sq > sm then Vec.mk' 64 0 else e.mPtrs)
              (if sq > sm then e.er.medium.init stop else e.er.medium).buckets
            rw [e1, e2, hm]
            exact rel_new
          · show Rel0 e.bAl poolMax 0 n e.bPool (Vec.mk' x.buckets.size 0) x.buckets
            rw [hn, hb, Vec.size_mk']
            exact rel_new
      · simp only [hc, if_false, pure_bind]
        refine Sim.pure ⟨⟨h.mAl, h.bAl, ?_, ⟨0, Nat.zero_le _, ?_⟩, (min_le_left _ _).trans (checkedAdd_max _ _), rfl⟩, rfl⟩
        · have e1 : (if sq > sm then Vec.mk' 64 0 else e.mPtrs) = Vec.mk' 64 0 := by
            rw [h.mV, ite_self]
          have e2 : (if sq > sm then e.er.medium.init stop else e.er.medium).buckets = Vec.mk' 64 [] := by
            rw [h.med]
            split <;> rfl
          show Rel0 e.mAl poolMax 0 64 e.mPool (if sq > sm then Vec.mk' 64 0 else e.mPtrs)
            (if sq > sm then e.er.medium.init stop else e.er.medium).buckets
          rw [e1, e2, hm]
          exact rel_new
        · show Rel0 e.bAl poolMax 0 0 e.bPool e.bPtrs e.er.big.buckets
          rw [hb, h.bV, h.big]
          exact rel_new

theorem mAdd_sim {al : Alloc} (hal : al.Valid) {c T : ℕ} (hT : cap 128 c ≤ T) {t : St} {s : EratMedium} {S : Vec Byte}
    (h : Rel al T c 64 (fun _ => 0) (fun _ => []) 0 [] t (s.buckets, S)) (p L : ℕ) :
    Sim (Refused T al) (mediumAdd al s.stop p L t) (s.add p L)
      (fun u r => Rel al T (c + 1) 64 (fun _ => 0) (fun _ => []) 0 [] u (r.buckets, S) ∧ r = { s with buckets := r.buckets }) := by
  unfold mediumAdd EratMedium.add
  refine Sim.same (fun r => ?_)
  match r with
  | none => exact Sim.pure ⟨h.mono (by omega), rfl⟩
  | some (mi, wi) => exact (mediumStore_sim hal hT h p mi wi).bind_right (fun u b hu => Sim.pure ⟨hu, rfl⟩)

theorem bAdd_sim {al : Alloc} (hal : al.Valid) {n c T : ℕ} (hT : cap (2 * n) c ≤ T) {t : St} {s : EratBig} {S : Vec Byte}
    (h : Rel al T c n (fun _ => 0) (fun _ => []) 0 [] t (s.buckets, S)) (p L : ℕ) :
    Sim (Refused T al) (bigAdd al s p L t) (s.add p L)
      (fun u r => Rel al T (c + 1) n (fun _ => 0) (fun _ => []) 0 [] u (r.buckets, S) ∧ r = { s with buckets := r.buckets }) := by
  unfold bigAdd EratBig.add
  refine Sim.same (fun r => ?_)
  match r with
  | none => exact Sim.pure ⟨h.mono (by omega), rfl⟩
  | some (mi, wi) => exact (bigStore_sim hal hT h s p mi wi).bind_right (fun u b hu => Sim.pure ⟨hu, rfl⟩)

/-- `bigAdd` and `bigCrossOff` do not look at the lists. -/
theorem bigAdd_lists {al : Alloc} (s : EratBig) (b : Vec Buckets) (p L : ℕ) (t : St) :
    bigAdd al { s with buckets := b } p L t = bigAdd al s p L t := rfl

theorem bigCrossOff_lists {al : Alloc} (s : EratBig) (b : Vec Buckets) (t : St) :
    bigCrossOff al { s with buckets := b } t = bigCrossOff al s t := rfl

theorem add_sim {F : Prop} {c : ℕ} {e : PErat} {s : Erat} (h : RErat F c e s) (hc : c ≤ 2 ^ 32) (p : ℕ) :
    Sim F (e.addSievingPrime p) (s.addSievingPrime p) (RErat F (c + 1)) := by
  obtain ⟨hm, hb, rm, ⟨n, hn, rb⟩, hh, he⟩ := h
  generalize s.medium.buckets = mb at rm he
  generalize s.big.buckets = bb at rb he
  subst he
  unfold PErat.addSievingPrime Erat.addSievingPrime
  refine Sim.ite (fun _ => ?_) (fun _ => Sim.ite (fun _ => ?_) (fun _ => ?_))
  · refine ((bAdd_sim (s := (e.abs mb bb).big) hb.1 ((cap_mono (show c ≤ c + 1022 by omega)).trans (cap_big hc hn)) (rb e.er.sieve) p e.er.segmentLow).weaken hb.2).bind (fun u r hu => Sim.pure ?_)
    obtain ⟨h1, h2⟩ := hu
    refine ⟨hm, hb, rm.mono (by omega), ⟨n, hn, h1.to0⟩, hh, ?_⟩
    show ({ (e.abs mb bb) with big := r } : Erat) = _
    rw [h2]
    rfl
  · refine ((mAdd_sim (s := (e.abs mb bb).medium) hm.1 ((cap_mono (show c ≤ c + 1022 by omega)).trans (cap_medium hc)) (rm e.er.sieve) p e.er.segmentLow).weaken hm.2).bind (fun u r hu => Sim.pure ?_)
    obtain ⟨h1, h2⟩ := hu
    refine ⟨hm, hb, h1.to0, ⟨n, hn, rb.mono (by omega)⟩, hh, ?_⟩
    show ({ (e.abs mb bb) with medium := r } : Erat) = _
    rw [h2]
    rfl
  · exact Sim.same (fun b => Sim.pure ⟨hm, hb, rm.mono (by omega), ⟨n, hn, rb.mono (by omega)⟩, hh, rfl⟩)

theorem Sim.and_right {F : Prop} {α β : Type} {m : M α} {m' : M β} {R : α → β → Prop} {Q : β → Prop} (h : Sim F m m' R)
    (hQ : ∀ b, m' = .ok b → Q b) : Sim F m m' (fun a b => R a b ∧ Q b) := by
  rcases h with h | h | ⟨a, b, h1, h2, h3⟩
  · exact Or.inl h
  · exact Or.inr (Or.inl h)
  · exact Or.inr (Or.inr ⟨a, b, h1, h2, h3, hQ b h2⟩)

theorem bind_ok {α β : Type} {m : M α} {f : α → M β} {b : β} (h : (m >>= f) = .ok b) : ∃ a, m = .ok a ∧ f a = .ok b := by
  cases m with
  | error e => cases h
  | ok a => exact ⟨a, rfl, h⟩

theorem medium_frame {s : EratMedium} {S : Vec Byte} {n : ℕ} {b : EratMedium × Vec Byte} (h : s.crossOff S n = .ok b) :
    b.1 = { s with buckets := b.1.buckets } := by
  unfold EratMedium.crossOff at h
  obtain ⟨r, -, h2⟩ := bind_ok h
  obtain rfl := Except.ok.inj h2
  rfl

theorem big_frame {s : EratBig} {S : Vec Byte} {b : EratBig × Vec Byte} (h : s.crossOff S = .ok b) :
    b.1 = { s with buckets := b.1.buckets } := by
  unfold EratBig.crossOff at h
  obtain ⟨r, -, h2⟩ := bind_ok h
  obtain rfl := Except.ok.inj h2
  rfl

theorem crossOff_sim {F : Prop} {c : ℕ} {e : PErat} {s : Erat} (h : RErat F c e s) (hc : c ≤ 2 ^ 32) (S : Vec Byte) :
    Sim F (e.crossOff S) (s.crossOff S) (RErat F c) := by
  obtain ⟨hm, hb, rm, ⟨n, hn, rb⟩, hh, he⟩ := h
  generalize s.medium.buckets = mb at rm he
  generalize s.big.buckets = bb at rb he
  subst he
  unfold PErat.crossOff Erat.crossOff
  refine Sim.same (fun a => ?_)
  refine Sim.bind (R := fun (t : St) (b : EratMedium × Vec Byte) => t.sieve = b.2 ∧ Rel0 e.mAl poolMax c 64 t.pool t.ptrs b.1.buckets ∧
    b.1 = { e.er.medium with buckets := b.1.buckets }) ?_ ?_
  · refine Sim.ite (fun _ => ?_) (fun _ => Sim.pure ⟨rfl, rm, rfl⟩)
    refine (((mediumCrossOff_sim (s := (e.abs mb bb).medium) hm.1 e.er.sieveSize (cap_medium hc) (rm a.2)).weaken hm.2).and_right
      (fun b hb => medium_frame hb)).mono (fun t b h => ⟨h.1.sieve, h.1.to0, ?_⟩)
    exact h.2
  · rintro t b ⟨h1, h2, h3⟩
    refine Sim.bind (R := fun (u : St) (d : EratBig × Vec Byte) => u.sieve = d.2 ∧ Rel0 e.bAl poolMax c n u.pool u.ptrs d.1.buckets ∧
      d.1 = { e.er.big with buckets := d.1.buckets }) ?_ ?_
    · rw [h1]
      refine Sim.ite (fun _ => ?_) (fun _ => Sim.pure ⟨rfl, rb, rfl⟩)
      refine (((bigCrossOff_sim (s := (e.abs mb bb).big) hb.1 (cap_big hc hn) (rb b.2)).weaken hb.2).and_right
        (fun b hb => big_frame hb)).mono (fun t b h => ⟨h.1.sieve, h.1.to0, ?_⟩)
      exact h.2
    · rintro u d ⟨k1, k2, k3⟩
      refine Sim.pure ⟨hm, hb, h2, ⟨n, hn, k2⟩, hh, ?_⟩
      show ({ (e.abs mb bb) with small := a.1, medium := b.1, big := d.1, sieve := d.2 } : Erat) = _
      rw [h3, k3, ← k1]
      rfl

/-- Changing the members that do not concern the buckets. -/
theorem RErat.update {F : Prop} {c : ℕ} {e : PErat} {s : Erat} (h : RErat F c e s) {er : Erat} {s' : Erat} (h0 : er.segmentHigh ≤ max64)
    (h1 : s'.medium.buckets = s.medium.buckets) (h2 : s'.big.buckets = s.big.buckets)
    (h3 : s' = ({ e with er := er } : PErat).abs s.medium.buckets s.big.buckets) : RErat F c { e with er := er } s' :=
  ⟨h.mAl, h.bAl, by rw [h1]; exact h.m, by rw [h2]; exact h.b, h0, by rw [h1, h2]; exact h3⟩

theorem sieveLastSegment_sim {F : Prop} {c : ℕ} {e : PErat} {s : Erat} (h : RErat F c e s) (hc : c ≤ 2 ^ 32) (pre : PreSieve) :
    Sim F (e.sieveLastSegment pre) (s.sieveLastSegment pre) (RErat F c) := by
  obtain ⟨hm, hb, rm, ⟨n, hn, rb⟩, hh, he⟩ := h
  generalize s.medium.buckets = mb at rm he
  generalize s.big.buckets = bb at rb he
  subst he
  unfold PErat.sieveLastSegment Erat.sieveLastSegment
  refine Sim.same (fun d => Sim.same (fun dist => Sim.same (fun sv => ?_)))
  refine Sim.bind (crossOff_sim (e := { e with er := { e.er with sieveSize := dist / 30 + 1 } }) (s := { e.abs mb bb with sieveSize := dist / 30 + 1 }) ⟨hm, hb, rm, ⟨n, hn, rb⟩, hh, rfl⟩ hc sv) ?_
  intro e' s' h
  obtain ⟨hm, hb, rm, ⟨n, hn, rb⟩, hh, he⟩ := h
  generalize s'.medium.buckets = mb at rm he
  generalize s'.big.buckets = bb at rb he
  subst he
  exact Sim.same (fun m => Sim.same (fun sv => Sim.same (fun sv => Sim.pure ⟨hm, hb, rm, ⟨n, hn, rb⟩, hh, rfl⟩)))

theorem sieveSegment_sim {F : Prop} {c : ℕ} {e : PErat} {s : Erat} (h : RErat F c e s) (hc : c ≤ 2 ^ 32) (pre : PreSieve) :
    Sim F (e.sieveSegment pre) (s.sieveSegment pre) (RErat F c) := by
  have h0 := h
  obtain ⟨hm, hb, rm, ⟨n, hn, rb⟩, hh, he⟩ := h
  generalize s.medium.buckets = mb at rm he
  generalize s.big.buckets = bb at rb he
  subst he
  unfold PErat.sieveSegment Erat.sieveSegment
  refine Sim.ite (fun _ => sieveLastSegment_sim h0 hc pre) (fun _ => Sim.same (fun sv => ?_))
  refine Sim.bind (crossOff_sim h0 hc sv) ?_
  intro e' s' h
  obtain ⟨hm, hb, rm, ⟨n, hn, rb⟩, hh, he⟩ := h
  generalize s'.medium.buckets = mb at rm he
  generalize s'.big.buckets = bb at rb he
  subst he
  exact Sim.pure ⟨hm, hb, rm, ⟨n, hn, rb⟩, (min_le_left _ _).trans (checkedAdd_max _ _), rfl⟩

/-! ## SievingPrimes -/

/-- The object with lists of buckets instead of pointers. -/
def PSieving.abs (s : PSieving) (er : Erat) : SievingPrimes :=
  { er := er, i := s.i, size := s.size, low := s.low, tinyIdx := s.tinyIdx, sieveIdx := s.sieveIdx, primes := s.primes, tiny := s.tiny }

/-- Related objects; only numbers below `tinyIdx` have been added. -/
def RSieving (F : Prop) (s : PSieving) (s' : SievingPrimes) : Prop :=
  ∃ er c, RErat F c s.er er ∧ s' = s.abs er ∧ c ≤ s.tinyIdx ∧ c ≤ 2 ^ 32 ∧ s.tiny.size ≤ 2 ^ 32

theorem RErat.core {F : Prop} {c : ℕ} {e : PErat} {s : Erat} (h : RErat F c e s) :
    s.start = e.er.start ∧ s.stop = e.er.stop ∧ s.sieveSize = e.er.sieveSize ∧ s.segmentLow = e.er.segmentLow ∧
    s.segmentHigh = e.er.segmentHigh ∧ s.sieve = e.er.sieve := by
  rw [h.eq]
  exact ⟨rfl, rfl, rfl, rfl, rfl, rfl⟩

theorem inBetween_le {lo x hi : ℕ} (h : lo ≤ hi) : inBetween lo x hi ≤ hi := by
  unfold inBetween
  split
  · exact h
  · split <;> omega

theorem init_frame {env : Env} {s : Erat} {start stop sieveSize : ℕ} {pre : PreSieve} {r : Erat × PreSieve}
    (h : s.init env start stop sieveSize pre = .ok r) (hle : start ≤ stop) : r.1.stop = stop ∧ r.1.sieveSize < 2 ^ 64 := by
  unfold Erat.init at h
  rw [if_neg (by omega)] at h
  obtain ⟨p, -, h⟩ := bind_ok h
  obtain ⟨l, -, h⟩ := bind_ok h
  obtain ⟨e, h1, h⟩ := bind_ok h
  obtain rfl := Except.ok.inj h
  unfold Erat.initErat at h1
  obtain ⟨q, -, h1⟩ := bind_ok h1
  obtain ⟨a, -, h1⟩ := bind_ok h1
  obtain ⟨b, -, h1⟩ := bind_ok h1
  obtain ⟨c, -, h1⟩ := bind_ok h1
  obtain rfl := Except.ok.inj h1
  refine ⟨rfl, ?_⟩
  show initSieveSize sieveSize < 2 ^ 64
  unfold initSieveSize
  have := inBetween_le (x := floorPow2 sieveSize) (show 8 ≤ 4096 by norm_num)
  omega

theorem PSieving.init_sim {F : Prop} {env : Env} {s : PSieving} {er0 : Erat} (h : Fresh F s.er er0) (h0 : er0.stop < 2 ^ 64) {c : ℕ}
    {e : PErat} {er : Erat} (he : RErat F c e er) (hst : er.stop < 2 ^ 64) (hsz : er.sieveSize < 2 ^ 64) (pre : PreSieve) :
    Sim F (s.init env e pre) ((s.abs er0).init env er pre) (fun a b => RSieving F a.1 b.1 ∧ a.2 = b.2) := by
  have hgs : er.getSieveSize < 2 ^ 64 := by
    unfold Erat.getSieveSize
    rw [Nat.shiftRight_eq_div_pow]
    omega
  unfold PSieving.init SievingPrimes.init
  obtain ⟨c1, c2, c3, c4, c5, c6⟩ := he.core
  have hg : e.er.getSieveSize = er.getSieveSize := by
    unfold Erat.getSieveSize
    rw [c3]
  rw [hg, ← c2, isqrt_ok env hst]
  simp only [ok_bind]
  have hR := sqrt_lt_32 hst
  refine Sim.bind ((Mem.init_sim h _ (by omega) hgs _).and_right (Q := fun b => b.1.stop < 2 ^ 64) (fun b hb => ?_)) ?_
  · by_cases hc : pre.maxPrime + 1 ≤ Nat.sqrt er.stop
    · rw [(init_frame hb hc).1]
      omega
    · unfold Erat.init at hb
      rw [if_pos (by omega)] at hb
      obtain rfl := Except.ok.inj hb
      exact h0
  rintro ⟨a, p⟩ ⟨b, q⟩ ⟨⟨hab, hpq⟩, hbs⟩
  dsimp only at hab hpq hbs
  subst hpq
  obtain ⟨d1, d2, -⟩ := hab.core
  dsimp only
  rw [d1, ← d2, isqrt_ok env hbs]
  simp only [ok_bind]
  have ht := tinySieve_ok (Nat.sqrt b.stop)
  obtain ⟨tiny, e1, e2, -⟩ := ht
  rw [e1]
  simp only [ok_bind]
  have := sqrt_lt_32 hbs
  exact Sim.pure ⟨⟨b, 0, hab, rfl, Nat.zero_le _, by omega, by dsimp only; omega⟩, rfl⟩

theorem rd_lt {α : Type} [Inhabited α] {v : Vec α} {i : ℕ} {x : α} (h : v.rd i = .ok x) : i < v.size := by
  by_contra hc
  unfold Vec.rd at h
  rw [if_neg hc] at h
  cases h

theorem PSieving.sieveSegment_sim {F : Prop} {s : PSieving} {s' : SievingPrimes} (h : RSieving F s s') (pre : PreSieve) :
    Sim F (s.sieveSegment pre) (s'.sieveSegment pre) (fun a b => a.1 = b.1 ∧ RSieving F a.2 b.2) := by
  obtain ⟨er, c, he, rfl, hc1, hc2, ht⟩ := h
  obtain ⟨c1, c2, c3, c4, c5, c6⟩ := he.core
  unfold PSieving.sieveSegment SievingPrimes.sieveSegment
  have hn : er.hasNextSegment = s.er.er.hasNextSegment := by unfold Erat.hasNextSegment; rw [c4, c2]
  show Sim F _ (if er.hasNextSegment = true then _ else _) _
  rw [hn]
  refine Sim.ite (fun _ => ?_) (fun _ => Sim.same (fun v => Sim.pure ⟨rfl, er, c, he, rfl, hc1, hc2, ht⟩))
  show Sim F _ (loop (er.segmentHigh + 2) (s.tinyIdx, er) (fun t =>
      if t.1 * t.1 ≤ er.segmentHigh then do
        let b ← s.tiny.rd t.1
        let er ← (if b then t.2.addSievingPrime t.1 else pure t.2)
        pure (.next (t.1 + 2, er))
      else pure (.done t)) >>= _) _
  rw [c5]
  refine Sim.bind (R := fun (a : ℕ × PErat) (b : ℕ × Erat) => a.1 = b.1 ∧ ∃ c, RErat F c a.2 b.2 ∧ c ≤ a.1 ∧ c ≤ 2 ^ 32)
    (Sim.loop (R := fun (a : ℕ × PErat) (b : ℕ × Erat) => a.1 = b.1 ∧ ∃ c, RErat F c a.2 b.2 ∧ c ≤ a.1 ∧ c ≤ 2 ^ 32) ?_ _ _ _
      ⟨rfl, c, he, hc1, hc2⟩) ?_
  · rintro ⟨i, a⟩ ⟨j, b⟩ ⟨hij, c, hab, hc1, hc2⟩
    dsimp only at hij hab hc1
    subst hij
    refine Sim.ite (fun _ => ?_) (fun _ => Sim.pure ⟨rfl, c, hab, hc1, hc2⟩)
    dsimp only
    cases hr : s.tiny.rd i with
    | error err => exact Or.inr (Or.inl ⟨err, rfl, rfl⟩)
    | ok t =>
      simp only [ok_bind]
      have := rd_lt hr
      refine Sim.bind (R := fun x y => ∃ c, RErat F c x y ∧ c ≤ i + 1 ∧ c ≤ 2 ^ 32)
        (Sim.ite (fun _ => (add_sim hab hc2 _).mono (fun x y h => ⟨c + 1, h, by omega, by omega⟩))
          (fun _ => Sim.pure ⟨c, hab, by omega, hc2⟩)) ?_
      rintro x y ⟨c, hxy, h1, h2⟩
      exact Sim.pure ⟨rfl, c, hxy, by dsimp only; omega, h2⟩
  · rintro ⟨i, a⟩ ⟨j, b⟩ ⟨hij, c, hab, hc1, hc2⟩
    dsimp only at hij hab hc1
    subst hij
    exact (Mem.sieveSegment_sim hab hc2 pre).bind (fun x y hxy => Sim.pure ⟨rfl, y, c, hxy, rfl, hc1, hc2, ht⟩)

theorem PSieving.fill_sim {F : Prop} {env : Env} {s : PSieving} {s' : SievingPrimes} (h : RSieving F s s') (pre : PreSieve) :
    Sim F (s.fill env pre) (s'.fill env pre) (RSieving F) := by
  unfold PSieving.fill SievingPrimes.fill
  refine Sim.bind (R := fun (a : Bool × PSieving) (b : Bool × SievingPrimes) => a.1 = b.1 ∧ RSieving F a.2 b.2) ?_ ?_
  · have h0 := h
    obtain ⟨er, c, he, rfl, hc⟩ := h
    obtain ⟨c1, c2, c3, c4, c5, c6⟩ := he.core
    show Sim F _ (if s.sieveIdx ≥ er.sieveSize then _ else _) _
    rw [c3]
    exact Sim.ite (fun _ => PSieving.sieveSegment_sim h0 pre) (fun _ => Sim.pure ⟨rfl, h0⟩)
  · rintro ⟨b, s⟩ ⟨b', s'⟩ ⟨hb, hs⟩
    dsimp only at hb hs
    subst hb
    have h0 := hs
    obtain ⟨er, c, he, rfl, hc⟩ := hs
    obtain ⟨c1, c2, c3, c4, c5, c6⟩ := he.core
    refine Sim.ite (fun _ => ?_) (fun _ => Sim.pure h0)
    show Sim F _ (fillLoop env er.sieve er.sieveSize s.primes.size ⟨0, s.low, s.sieveIdx, s.primes⟩ >>= _) _
    rw [c3, c6]
    exact Sim.same (fun f => Sim.pure ⟨er, c, he, rfl, hc⟩)

theorem PSieving.next_sim {F : Prop} {env : Env} {s : PSieving} {s' : SievingPrimes} (h : RSieving F s s') (pre : PreSieve) :
    Sim F (s.next env pre) (s'.next env pre) (fun a b => a.1 = b.1 ∧ RSieving F a.2 b.2) := by
  unfold PSieving.next SievingPrimes.next
  have hst : s'.er.stop = s.er.er.stop := by
    obtain ⟨er, c, he, rfl, hc⟩ := h
    exact he.core.2.1
  rw [hst]
  refine Sim.bind (R := RSieving F) (Sim.loop (R := RSieving F) ?_ _ _ _ h) ?_
  · intro a b hab
    have h0 := hab
    obtain ⟨er, c, he, rfl, hc⟩ := hab
    exact Sim.ite (fun _ => (PSieving.fill_sim h0 pre).bind (fun x y hxy => Sim.pure hxy)) (fun _ => Sim.pure h0)
  · rintro a b ⟨er, c, he, rfl, hc⟩
    exact Sim.same (fun p => Sim.pure ⟨rfl, er, c, he, rfl, hc⟩)

/-! ## PrimeGenerator -/

/-- The object with lists of buckets instead of pointers. -/
def PGen.abs (g : PGen) (er : Erat) (sp : SievingPrimes) : PrimeGenerator :=
  { er := er, low := g.low, sieveIdx := g.sieveIdx, prime := g.prime, pre := g.pre, sp := sp, isInit := g.isInit }

/-- The state of the sieving primes of the generator on lists. -/
def SpOK (g : PrimeGenerator) : Prop :=
  PreOK g.pre ∧ ∃ R es bs cc, SPInv g.sp g.pre.maxPrime R es bs cc ∧ PrimeSt g.pre.maxPrime R g.prime cc

/-- Related objects after `init`; the sieving primes added are below `prime`. -/
def RGen1 (F : Prop) (g : PGen) (g' : PrimeGenerator) : Prop :=
  g.isInit = true ∧ (g'.er.hasNextSegment = false ∨ SpOK g') ∧ ∃ er sp c, RErat F c g.er er ∧ c ≤ 2 ^ 32 ∧ (c = 0 ∨ c < g.prime) ∧
    RSieving F g.sp sp ∧ g' = g.abs er sp

/-- New objects. -/
def RNew (F : Prop) (g : PGen) (g' : PrimeGenerator) : Prop :=
  g.isInit = false ∧ ∃ start stop, stop < 2 ^ 64 ∧ g' = PrimeGenerator.make start stop ∧
    Fresh F g.er g'.er ∧ Fresh F g.sp.er g'.sp.er ∧ g' = g.abs g'.er (g.sp.abs g'.sp.er)

/-- Related objects; before `init`, they are new. -/
def RGen (F : Prop) (g : PGen) (g' : PrimeGenerator) : Prop := RGen1 F g g' ∨ RNew F g g'

theorem RGen.make {F : Prop} {start stop : ℕ} (hstop : stop < 2 ^ 64) {h : Fin 4 → Heap} (hh : ∀ i, AllocOK F (h i).al) :
    RGen F (PGen.make start stop h) (PrimeGenerator.make start stop) := by
  have f1 : Fresh F (PErat.make { start := start, stop := stop } (h 0) (h 1)) { start := start, stop := stop } :=
    fresh_make (hh 0) (hh 1) rfl rfl (Nat.zero_le _)
  have f2 : Fresh F (PErat.make {} (h 2) (h 3)) {} := fresh_make (hh 2) (hh 3) rfl rfl (Nat.zero_le _)
  exact Or.inr ⟨rfl, start, stop, hstop, rfl, f1, f2, rfl⟩

theorem RGen.erat {F : Prop} {g : PGen} {g' : PrimeGenerator} (h : RGen F g g') : ∃ er sp c, RErat F c g.er er ∧ g' = g.abs er sp := by
  rcases h with ⟨-, -, er, sp, c, he, -, -, -, e⟩ | ⟨-, start, stop, -, -, f1, -, e⟩
  · exact ⟨er, sp, c, he, e⟩
  · exact ⟨_, _, 0, f1.rel, e⟩

theorem RGen.core {F : Prop} {g : PGen} {g' : PrimeGenerator} (h : RGen F g g') :
    g'.er.start = g.er.er.start ∧ g'.er.stop = g.er.er.stop ∧ g'.er.sieveSize = g.er.er.sieveSize ∧
    g'.er.segmentLow = g.er.er.segmentLow ∧ g'.er.segmentHigh = g.er.er.segmentHigh ∧ g'.er.sieve = g.er.er.sieve ∧
    g'.low = g.low ∧ g'.sieveIdx = g.sieveIdx ∧ g'.prime = g.prime ∧ g'.pre = g.pre ∧ g'.isInit = g.isInit := by
  obtain ⟨er, sp, c, he, rfl⟩ := h.erat
  obtain ⟨c1, c2, c3, c4, c5, c6⟩ := he.core
  exact ⟨c1, c2, c3, c4, c5, c6, rfl, rfl, rfl, rfl, rfl⟩

theorem RGen1.gen {F : Prop} {g : PGen} {g' : PrimeGenerator} (h : RGen1 F g g') : RGen F g g' := Or.inl h

theorem RGen.init {F : Prop} {g : PGen} {g' : PrimeGenerator} (h : RGen F g g') (hi : g.isInit = true) : RGen1 F g g' := by
  rcases h with h | h
  · exact h
  · rw [h.1] at hi
    cases hi

theorem PGen.initErat_sim1 {F : Prop} {env : Env} {g : PGen} {g' : PrimeGenerator} (h : RGen F g g') (hi : g.isInit = false) :
    Sim F (g.initErat env) (g'.initErat env) (RGen1 F) := by
  have hc := h.core
  rcases h with h | ⟨-, start, stop, hstop, hg, f1, f2, he⟩
  · rw [h.1] at hi
    cases hi
  have e1 : g'.er.start = start := by rw [hg]; rfl
  have e2 : g'.er.stop = stop := by rw [hg]; rfl
  have key : Sim F (g.initErat env) (g'.initErat env) (fun a b => a.isInit = true ∧ ∃ er sp, RErat F 0 a.er er ∧ RSieving F a.sp sp ∧
      b = a.abs er sp) := by
    unfold PGen.initErat PrimeGenerator.initErat
    rw [hc.1.symm, hc.2.1.symm, e1, e2, maxCached]
    simp only [ok_bind]
    have hpre : g'.pre = g.pre := hc.2.2.2.2.2.2.2.2.2.1
    have f2s : g'.sp.er.stop < 2 ^ 64 := by
      rw [hg]
      exact Nat.zero_lt_succ _
    refine Sim.ite (fun hle => ?_) (fun _ => Sim.pure ⟨rfl, _, _, f1.rel,
      ⟨_, 0, f2.rel, rfl, Nat.zero_le _, Nat.zero_le _, ?_⟩, congrArg (fun x : PrimeGenerator => { x with isInit := true }) he⟩)
    · rw [hpre]
      refine Sim.bind ((Mem.init_sim f1 _ hstop (getSieveSize_lt env) _).and_right (fun b hb => init_frame hb hle)) ?_
      rintro ⟨a, p⟩ ⟨b, q⟩ ⟨⟨hab, hpq⟩, k1, k2⟩
      dsimp only at hab hpq k1 k2
      subst hpq
      have hsp : g'.sp = g.sp.abs g'.sp.er := congrArg PrimeGenerator.sp he
      have := PSieving.init_sim (env := env) f2 f2s hab (by rw [k1]; exact hstop) k2 p
      rw [← hsp] at this
      refine Sim.bind this ?_
      rintro ⟨x, p⟩ ⟨y, q⟩ ⟨hxy, hpq⟩
      dsimp only at hxy hpq
      subst hpq
      refine Sim.pure ⟨rfl, b, y, hab, hxy, ?_⟩
      show ({ g' with isInit := true, er := b, sp := y, pre := p } : PrimeGenerator) = _
      rw [he]
      rfl
    · have : g'.sp.tiny = g.sp.tiny := congrArg (fun x : PrimeGenerator => x.sp.tiny) he
      rw [← this, hg]
      exact Nat.zero_le _
  refine (key.and_right (Q := fun b => b.er.hasNextSegment = false ∨ SpOK b) (fun b hb => ?_)).mono ?_
  · by_cases hle : max 720 start ≤ stop
    · right
      obtain ⟨b', h1, e, es, x, h2, -⟩ := G_initErat_ok (env := env) hstop hle
      rw [← hg, hb] at h1
      obtain rfl := Except.ok.inj h1
      obtain ⟨bs, cc, h3, h4⟩ := h2.sp
      exact ⟨h2.pre, _, _, _, _, h3, h4⟩
    · left
      unfold PrimeGenerator.initErat at hb
      rw [maxCached] at hb
      simp only [ok_bind] at hb
      rw [e1, e2, if_neg hle] at hb
      obtain rfl := Except.ok.inj hb
      show g'.er.hasNextSegment = false
      rw [hg]
      refine decide_eq_false ?_
      show ¬ max64 < stop
      rw [max64_eq]
      omega
  · rintro a b ⟨⟨h1, er, sp, h2, h3, h4⟩, h5⟩
    exact ⟨h1, h5, er, sp, 0, h2, Nat.zero_le _, Or.inl rfl, h3, h4⟩

/-- Fetching the next sieving prime. -/
theorem spNext {env : Env} {g : PrimeGenerator} (h : SpOK g) (hp : g.prime ≠ max64) {r : ℕ × SievingPrimes} (hr : g.sp.next env g.pre = .ok r) :
    g.prime < r.1 ∧ ∀ er, SpOK { g with er := er, prime := r.1, sp := r.2 } := by
  obtain ⟨h0, R, es, bs, cc, h1, h2⟩ := h
  obtain ⟨r', e1, e2⟩ := SP_next_ok (env := env) h1 h0 rfl
  rw [hr] at e1
  obtain rfl := Except.ok.inj e1
  have hcc : cc = g.prime := by
    rcases h2 with h2 | h2 | h2
    · omega
    · exact h2.2
    · exact absurd h2.1 hp
  rcases e2 with ⟨k1, b', k2⟩ | ⟨k1, k2, b', k3⟩
  · refine ⟨by have := k1.1; omega, fun er => ⟨h0, R, es, b', _, k2, Or.inr (Or.inl ⟨k1.2.1, rfl⟩)⟩⟩
  · refine ⟨?_, fun er => ⟨h0, R, es, b', _, k3, Or.inr (Or.inr ⟨k2, k1⟩)⟩⟩
    rw [k2]
    have hR := h1.stopLt
    rcases h2 with h2 | h2 | h2
    · rw [h2.1, max64_eq]
      norm_num
    · have := h2.1.2.1
      rw [max64_eq]
      omega
    · exact absurd h2.1 hp

theorem PGen.sieveSegment_sim {F : Prop} {env : Env} {g : PGen} {g' : PrimeGenerator} (h : RGen1 F g g') (hn : g'.er.hasNextSegment = true) :
    Sim F (g.sieveSegment env) (g'.sieveSegment env) (RGen1 F) := by
  have hcore := h.gen.core
  obtain ⟨hi, hj, er, sp, c, he, hc, hcp, hs, rfl⟩ := h
  have hj : SpOK (g.abs er sp) := hj.resolve_left (by rw [hn]; simp)
  have hhigh := he.high
  unfold PGen.sieveSegment PrimeGenerator.sieveSegment
  rw [hcore.2.2.2.2.1, isqrt_ok env (by rw [max64_eq] at hhigh; omega)]
  simp only [ok_bind]
  have hsq := sqrt_lt_32 (show g.er.er.segmentHigh < 2 ^ 64 by rw [max64_eq] at hhigh; omega)
  generalize Nat.sqrt g.er.er.segmentHigh = sq at hsq
  have hlow : er.segmentLow = g.er.er.segmentLow := he.core.2.2.2.1
  refine Sim.bind (R := fun (g : PGen) (g' : PrimeGenerator) => g.isInit = true ∧ SpOK g' ∧ ∃ er sp c, RErat F c g.er er ∧ c ≤ 2 ^ 32 ∧
    c < g.prime ∧ RSieving F g.sp sp ∧ g' = g.abs er sp) ?_ ?_
  · dsimp only [PGen.abs]
    refine Sim.ite (fun hz => ?_) (fun hz => Sim.pure ⟨hi, hj, er, sp, c, he, hc, by dsimp only; omega, hs, ?_⟩)
    · have hnm : (g.abs er sp).prime ≠ max64 := by
        show g.prime ≠ max64
        rw [hz, max64_eq]
        norm_num
      refine ((PSieving.next_sim hs g.pre).and_right (fun b hb => spNext hj hnm hb)).bind ?_
      rintro ⟨p, x⟩ ⟨q, y⟩ ⟨⟨hpq, hxy⟩, k1, k2⟩
      dsimp only at hpq hxy k1
      subst hpq
      have k1 : g.prime < p := k1
      refine Sim.pure ⟨hi, k2 er, er, y, c, he, hc, by dsimp only; omega, hxy, ?_⟩
      simp only [hlow]
    · simp only [hlow]
  · intro g g' h
    refine Sim.bind (R := fun (g : PGen) (g' : PrimeGenerator) => g.isInit = true ∧ SpOK g' ∧ ∃ er sp c, RErat F c g.er er ∧ c ≤ 2 ^ 32 ∧
      c < g.prime ∧ RSieving F g.sp sp ∧ g' = g.abs er sp) (Sim.loop (R := fun (g : PGen) (g' : PrimeGenerator) => g.isInit = true ∧ SpOK g' ∧
        ∃ er sp c, RErat F c g.er er ∧ c ≤ 2 ^ 32 ∧ c < g.prime ∧ RSieving F g.sp sp ∧ g' = g.abs er sp) ?_ _ _ _ h) ?_
    · rintro g g' ⟨hi, hj, er, sp, c, he, hc, hcp, hs, rfl⟩
      refine Sim.ite (fun hle => ?_) (fun _ => Sim.pure ⟨hi, hj, er, sp, c, he, hc, hcp, hs, rfl⟩)
      have hle : g.prime ≤ sq := hle
      have hnm : (g.abs er sp).prime ≠ max64 := by
        show g.prime ≠ max64
        rw [max64_eq]
        omega
      refine (add_sim he hc _).bind (fun e1 er1 h1 => ((PSieving.next_sim hs g.pre).and_right (fun b hb => spNext hj hnm hb)).bind ?_)
      rintro ⟨p, x⟩ ⟨q, y⟩ ⟨⟨hpq, hxy⟩, k1, k2⟩
      dsimp only at hpq hxy k1
      subst hpq
      have k1 : g.prime < p := k1
      exact Sim.pure ⟨hi, k2 er1, er1, y, c + 1, h1, by omega, by dsimp only; omega, hxy, rfl⟩
    · rintro g g' ⟨hi, hj, er, sp, c, he, hc, hcp, hs, rfl⟩
      exact (Mem.sieveSegment_sim he hc _).bind (fun e1 er1 h1 => Sim.pure ⟨hi, Or.inr hj, er1, sp, c, h1, hc, Or.inr hcp, hs, rfl⟩)

theorem RGen.hasNext {F : Prop} {g : PGen} {g' : PrimeGenerator} (h : RGen F g g') : g'.er.hasNextSegment = g.er.er.hasNextSegment := by
  unfold Erat.hasNextSegment
  rw [h.core.2.2.2.1, h.core.2.1]

theorem PGen.sieveSegmentPrev_sim {F : Prop} {env : Env} {g : PGen} {g' : PrimeGenerator} (h : RGen F g g') (primes : Vec ℕ) :
    Sim F (g.sieveSegmentPrev env primes) (g'.sieveSegmentPrev env primes)
      (fun a b => a.1 = b.1 ∧ RGen1 F a.2.1 b.2.1 ∧ a.2.2 = b.2.2) := by
  unfold PGen.sieveSegmentPrev PrimeGenerator.sieveSegmentPrev
  rw [h.core.2.2.2.2.2.2.2.2.2.2]
  refine Sim.bind (R := fun (a : PGen × Vec ℕ) (b : PrimeGenerator × Vec ℕ) => RGen1 F a.1 b.1 ∧ a.2 = b.2)
    (Sim.ite (fun hi => Sim.pure ⟨h.init hi, rfl⟩) (fun hi => ?_)) ?_
  · have hi : g.isInit = false := by simpa using hi
    unfold PGen.initPrev PrimeGenerator.initPrev
    rw [h.core.1, h.core.2.1]
    exact Sim.same (fun m => Sim.same (fun v => (PGen.initErat_sim1 h hi).bind (fun a b hab => Sim.pure ⟨hab, rfl⟩)))
  · rintro ⟨g, v⟩ ⟨g', v'⟩ ⟨hg, hv⟩
    dsimp only at hg hv
    subst hv
    dsimp only
    rw [hg.gen.hasNext]
    exact Sim.ite (fun hns => (PGen.sieveSegment_sim hg (by rw [hg.gen.hasNext]; exact hns)).bind (fun a b hab => Sim.pure ⟨rfl, hab, rfl⟩)) (fun _ => Sim.pure ⟨rfl, hg, rfl⟩)

theorem PGen.drain_sim {F : Prop} {env : Env} {g : PGen} {g' : PrimeGenerator} (h : RGen1 F g g') (primes : Vec ℕ) :
    Sim F (g.drain env primes) (g'.drain env primes) (fun a b => RGen1 F a.1 b.1 ∧ a.2 = b.2) := by
  unfold PGen.drain PrimeGenerator.drain
  rw [h.gen.core.2.2.1]
  refine Sim.loop (R := fun (a : PGen × Vec ℕ) (b : PrimeGenerator × Vec ℕ) => RGen1 F a.1 b.1 ∧ a.2 = b.2) ?_ _ _ _ ⟨h, rfl⟩
  rintro ⟨g, v⟩ ⟨g', v'⟩ ⟨hg, hv⟩
  dsimp only at hg hv
  subst hv
  dsimp only
  obtain ⟨-, -, c3, -, -, c6, c7, c8, -⟩ := hg.gen.core
  rw [c3, c8, c6, c7]
  refine Sim.ite (fun _ => Sim.same (fun b => Sim.same (fun w => Sim.pure ⟨?_, rfl⟩))) (fun _ => Sim.pure ⟨hg, rfl⟩)
  obtain ⟨hi, hj, er, sp, c, he, hc, hcp, hs, rfl⟩ := hg
  exact ⟨hi, hj, er, sp, c, he, hc, hcp, hs, rfl⟩

theorem PGen.fillPrev_sim {F : Prop} {env : Env} {g : PGen} {g' : PrimeGenerator} (h : RGen F g g') (primes : Vec ℕ) :
    Sim F (g.fillPrev env primes) (g'.fillPrev env primes) (fun a b => RGen F a.1 b.1 ∧ a.2 = b.2) := by
  unfold PGen.fillPrev PrimeGenerator.fillPrev
  rw [h.core.2.1]
  refine Sim.loop (R := fun (a : PGen × Vec ℕ) (b : PrimeGenerator × Vec ℕ) => RGen F a.1 b.1 ∧ a.2 = b.2) ?_ _ _ _ ⟨h, rfl⟩
  rintro ⟨g, v⟩ ⟨g', v'⟩ ⟨hg, hv⟩
  dsimp only at hg hv
  subst hv
  dsimp only
  refine (PGen.sieveSegmentPrev_sim hg v).bind ?_
  rintro ⟨b, g, v⟩ ⟨b', g', v'⟩ ⟨hb, hg, hv⟩
  dsimp only at hb hg hv
  subst hb hv
  exact Sim.ite (fun _ => (PGen.drain_sim hg v).bind (fun a b hab => Sim.pure ⟨hab.1.gen, hab.2⟩)) (fun _ => Sim.pure ⟨hg.gen, rfl⟩)

theorem PGen.sieveSegmentNext_sim {F : Prop} {env : Env} {g : PGen} {g' : PrimeGenerator} (h : RGen F g g') (primes : Vec ℕ) :
    Sim F (g.sieveSegmentNext env primes) (g'.sieveSegmentNext env primes)
      (fun a b => a.1 = b.1 ∧ RGen1 F a.2.1 b.2.1 ∧ a.2.2 = b.2.2) := by
  unfold PGen.sieveSegmentNext PrimeGenerator.sieveSegmentNext
  rw [h.core.2.2.2.2.2.2.2.2.2.2]
  refine Sim.bind (R := fun (a : PGen × Vec ℕ × ℕ) (b : PrimeGenerator × Vec ℕ × ℕ) => RGen1 F a.1 b.1 ∧ a.2 = b.2)
    (Sim.ite (fun hi => Sim.pure ⟨h.init hi, rfl⟩) (fun hi => ?_)) ?_
  · have hi : g.isInit = false := by simpa using hi
    unfold PGen.initNext PrimeGenerator.initNext
    rw [h.core.1, h.core.2.1]
    exact Sim.same (fun m => Sim.same (fun v => (PGen.initErat_sim1 h hi).bind (fun a b hab => Sim.pure ⟨hab, rfl⟩)))
  · rintro ⟨g, v⟩ ⟨g', v'⟩ ⟨hg, hv⟩
    dsimp only at hg hv
    subst hv
    dsimp only
    rw [hg.gen.hasNext, hg.gen.core.2.1]
    refine Sim.ite (fun _ => Sim.pure ⟨rfl, hg, rfl⟩) (fun _ => Sim.ite
      (fun hns => (PGen.sieveSegment_sim hg (by rw [hg.gen.hasNext]; exact hns)).bind (fun a b hab => Sim.pure ⟨rfl, hab, rfl⟩))
      (fun _ => Sim.ite (fun _ => Sim.same (fun w => Sim.pure ⟨rfl, hg, rfl⟩)) (fun _ => Sim.pure ⟨rfl, hg, rfl⟩)))

theorem PGen.fillNext_sim {F : Prop} {env : Env} {g : PGen} {g' : PrimeGenerator} (h : RGen F g g') (primes : Vec ℕ) :
    Sim F (g.fillNext env primes) (g'.fillNext env primes) (fun a b => RGen F a.1 b.1 ∧ a.2 = b.2) := by
  unfold PGen.fillNext PrimeGenerator.fillNext
  rw [h.core.2.1]
  refine Sim.loop (R := fun (a : PGen × Vec ℕ) (b : PrimeGenerator × Vec ℕ) => RGen F a.1 b.1 ∧ a.2 = b.2) ?_ _ _ _ ⟨h, rfl⟩
  rintro ⟨g, v⟩ ⟨g', v'⟩ ⟨hg, hv⟩
  dsimp only at hg hv
  subst hv
  dsimp only
  have hg1 : ¬ g.sieveIdx ≥ g.er.er.sieveSize → RGen1 F g g' := by
    intro hlt
    have c3 := hg.core.2.2.1
    rcases hg with hg | ⟨-, start, stop, -, hg, -⟩
    · exact hg
    · rw [← c3, hg] at hlt
      exact absurd (Nat.zero_le _) hlt
  rw [hg.core.2.2.2.2.2.2.2.1, hg.core.2.2.1]
  refine Sim.bind (R := fun (a : Bool × PGen × Vec ℕ × ℕ) (b : Bool × PrimeGenerator × Vec ℕ × ℕ) =>
    a.1 = b.1 ∧ RGen1 F a.2.1 b.2.1 ∧ a.2.2 = b.2.2) (Sim.ite
      (fun _ => PGen.sieveSegmentNext_sim hg v)
      (fun hlt => Sim.pure ⟨rfl, hg1 hlt, rfl⟩)) ?_
  rintro ⟨b, g, v, n⟩ ⟨b', g', v', n'⟩ ⟨hb, hg, hv⟩
  dsimp only at hb hg hv
  obtain ⟨rfl, rfl⟩ := Prod.mk.inj hv
  subst hb
  dsimp only
  obtain ⟨-, -, c3, -, -, c6, c7, c8, -⟩ := hg.gen.core
  rw [c3, c8, c6, c7]
  refine Sim.ite (fun _ => Sim.same (fun f => ?_)) (fun _ => Sim.pure ⟨hg.gen, rfl⟩)
  have : RGen F { g with low := f.low, sieveIdx := f.sieveIdx } { g' with low := f.low, sieveIdx := f.sieveIdx } := by
    obtain ⟨hi, hj, er, sp, c, he, hc, hcp, hs, rfl⟩ := hg
    exact Or.inl ⟨hi, hj, er, sp, c, he, hc, hcp, hs, rfl⟩
  exact Sim.ite (fun _ => Sim.pure ⟨this, rfl⟩) (fun _ => Sim.pure ⟨this, rfl⟩)

/-! ## iterator -/

/-- Every `new` is sound, and its failures are instances of `F`. -/
def HeapOK (F : Prop) (heap : ℕ → Fin 4 → Heap) : Prop := ∀ k i, AllocOK F (heap k i).al

/-- Related generators, if there are any. -/
def ROpt (F : Prop) : Option PGen → Option PrimeGenerator → Prop
  | some g, some g' => RGen F g g'
  | none, none => True
  | _, _ => False

/-- Related iterators. -/
def RIter (F : Prop) (it : PIter) (it' : Iter) : Prop :=
  (HeapOK F it.heap ∧ it.start < 2 ^ 64) ∧ ∃ g, ROpt F it.gen g ∧
    it' = ⟨it.i, it.lastIdx, it.primes, it.start, it.stop, it.stopHint, it.dist, g⟩

theorem PIter.make_rel {F : Prop} {heap : ℕ → Fin 4 → Heap} (h : HeapOK F heap) {start : ℕ} (hs : start < 2 ^ 64) (stopHint : ℕ) :
    RIter F (PIter.make heap start stopHint) (Iter.make start stopHint) := ⟨⟨h, hs⟩, none, trivial, rfl⟩

theorem helperNext_le {env : Env} {stop stopHint dist : ℕ} {h : ℕ × ℕ × ℕ} (hh : helperNext env stop stopHint dist = .ok h) :
    h.1 < 2 ^ 64 ∧ h.2.1 < 2 ^ 64 := by
  have h1 := checkedAdd_max stop 1
  have hm := max64_eq
  unfold helperNext at hh
  rw [maxCached] at hh
  simp only [ok_bind] at hh
  split at hh
  · obtain rfl := Except.ok.inj hh
    dsimp only
    omega
  · obtain ⟨d, -, hh⟩ := bind_ok hh
    have h2 := checkedAdd_max (checkedAdd stop 1) d
    have h3 := checkedAdd_max stopHint (env.maxGap stopHint)
    split at hh <;> obtain rfl := Except.ok.inj hh <;> dsimp only <;> omega

theorem PIter.refill_sim {F : Prop} {env : Env} {it : PIter} {it' : Iter} (h : RIter F it it') :
    Sim F (it.refill env) (it'.refill env) (RIter F) := by
  obtain ⟨hh, g, hg, rfl⟩ := h
  unfold PIter.refill Iter.refill
  cases hi : it.gen with
  | none =>
    cases g with
    | some g => rw [hi] at hg; exact hg.elim
    | none =>
      dsimp only
      cases hr : helperNext env it.stop it.stopHint it.dist with
      | error err => exact Or.inr (Or.inl ⟨err, rfl, rfl⟩)
      | ok h =>
        simp only [ok_bind]
        have hle := helperNext_le hr
        refine (PGen.fillNext_sim (RGen.make hle.2 (hh.1 it.made)) _).bind ?_
        rintro ⟨g, v, n⟩ ⟨g', v', n'⟩ ⟨hg, hv⟩
        obtain ⟨rfl, rfl⟩ := Prod.mk.inj hv
        exact Sim.pure ⟨⟨hh.1, hle.1⟩, some g', hg, rfl⟩
  | some g1 =>
    cases g with
    | none => rw [hi] at hg; exact hg.elim
    | some g =>
      rw [hi] at hg
      dsimp only
      refine (PGen.fillNext_sim hg _).bind ?_
      rintro ⟨g, v, n⟩ ⟨g', v', n'⟩ ⟨hg, hv⟩
      obtain ⟨rfl, rfl⟩ := Prod.mk.inj hv
      exact Sim.pure ⟨hh, some g', hg, rfl⟩

theorem PIter.generateNext_sim {F : Prop} {env : Env} {it : PIter} {it' : Iter} (h : RIter F it it') :
    Sim F (it.generateNext env) (it'.generateNext env) (RIter F) := by
  unfold PIter.generateNext Iter.generateNext
  refine Sim.bind (R := RIter F) (Sim.loop (R := RIter F) ?_ _ _ _ h) ?_
  · intro a b hab
    refine (PIter.refill_sim hab).bind ?_
    rintro a b ⟨hh, g, hg, rfl⟩
    exact Sim.ite (fun _ => Sim.pure ⟨hh, none, trivial, rfl⟩) (fun _ => Sim.pure ⟨hh, g, hg, rfl⟩)
  · rintro a b ⟨hh, g, hg, rfl⟩
    exact Sim.pure ⟨hh, g, hg, rfl⟩

theorem ROpt.isSome {F : Prop} {g : Option PGen} {g' : Option PrimeGenerator} (h : ROpt F g g') : g'.isSome = g.isSome := by
  cases g <;> cases g' <;> first | rfl | exact h.elim

theorem PIter.generatePrev_sim {F : Prop} {env : Env} {it : PIter} {it' : Iter} (h : RIter F it it')
    (hp : it'.gen.isSome → it'.primes.get 0 < 2 ^ 64) :
    Sim F (it.generatePrev env) (it'.generatePrev env) (RIter F) := by
  unfold PIter.generatePrev Iter.generatePrev
  refine Sim.bind (R := RIter F) ?_ ?_
  · have h0 := h
    obtain ⟨hh, g, hg, rfl⟩ := h
    dsimp only
    rw [hg.isSome]
    refine Sim.ite (fun hsome => ?_) (fun _ => Sim.pure h0)
    have hp : it.primes.get 0 < 2 ^ 64 := hp (by dsimp only; rw [hg.isSome]; exact hsome)
    cases hr : it.primes.rd 0 with
    | error err => exact Or.inr (Or.inl ⟨err, rfl, rfl⟩)
    | ok p =>
      simp only [ok_bind]
      rw [Vec.rd_ok (rd_lt hr)] at hr
      rw [Except.ok.inj hr] at hp
      exact Sim.pure ⟨⟨hh.1, hp⟩, g, hg, rfl⟩
  · rintro it it' ⟨hh, g, hg, rfl⟩
    dsimp only
    refine Sim.bind (R := RIter F) (Sim.loop (R := RIter F) ?_ _ _ _ ⟨hh, g, hg, rfl⟩) ?_
    · rintro it it' ⟨hh, g, hg, rfl⟩
      dsimp only
      refine Sim.ite (fun _ => ?_) (fun _ => Sim.pure ⟨hh, g, hg, rfl⟩)
      obtain ⟨h, e1, e2, e3⟩ := helperPrev_ok env it.start it.stopHint it.dist
      rw [e1]
      simp only [ok_bind]
      have hs := hh.2
      refine (PGen.fillPrev_sim (RGen.make (show h.2.1 < 2 ^ 64 by omega) (hh.1 it.made)) _).bind ?_
      rintro ⟨g, v⟩ ⟨g', v'⟩ ⟨hg, hv⟩
      dsimp only at hv
      subst hv
      exact Sim.pure ⟨⟨hh.1, show h.1 < 2 ^ 64 by omega⟩, none, trivial, rfl⟩
    · rintro a b ⟨hh, g, hg, rfl⟩
      exact Sim.pure ⟨hh, g, hg, rfl⟩

theorem PIter.nextPrime_sim {F : Prop} {env : Env} {it : PIter} {it' : Iter} (h : RIter F it it') :
    Sim F (it.nextPrime env) (it'.nextPrime env) (fun a b => a.1 = b.1 ∧ RIter F a.2 b.2) := by
  unfold PIter.nextPrime Iter.nextPrime
  refine Sim.bind (R := RIter F) ?_ ?_
  · have h0 := h
    obtain ⟨hh, g, hg, rfl⟩ := h
    exact Sim.ite (fun _ => PIter.generateNext_sim h0) (fun _ => Sim.pure ⟨hh, g, hg, rfl⟩)
  · rintro a b ⟨hh, g, hg, rfl⟩
    exact Sim.same (fun p => Sim.pure ⟨rfl, hh, g, hg, rfl⟩)

/-- The first number in the buffer. -/
theorem IterAt.first {it : Iter} {cur : ℕ} (h : IterAt it cur) : it.gen.isSome → it.primes.get 0 < 2 ^ 64 := by
  intro hg
  rcases h with h | ⟨z, h, -⟩ | ⟨g, c, B, h, -⟩ | ⟨g, c, B, h, -⟩
  · rw [h.1] at hg
    cases hg
  · rw [h.none] at hg
    cases hg
  · have := (h.lst.mem 0 (le_refl _) (by omega)).2.2.2.1
    have := h.lt
    omega
  · rw [h.get]
    norm_num

theorem PIter.prevPrime_sim {F : Prop} {env : Env} {it : PIter} {it' : Iter} (h : RIter F it it')
    (hp : it'.gen.isSome → it'.primes.get 0 < 2 ^ 64) :
    Sim F (it.prevPrime env) (it'.prevPrime env) (fun a b => a.1 = b.1 ∧ RIter F a.2 b.2) := by
  unfold PIter.prevPrime Iter.prevPrime
  refine Sim.bind (R := RIter F) ?_ ?_
  · have h0 := h
    obtain ⟨hh, g, hg, rfl⟩ := h
    exact Sim.ite (fun _ => PIter.generatePrev_sim h0 hp) (fun _ => Sim.pure ⟨hh, g, hg, rfl⟩)
  · rintro a b ⟨hh, g, hg, rfl⟩
    exact Sim.same (fun p => Sim.pure ⟨rfl, hh, g, hg, rfl⟩)

/-! ## StorePrimes -/

theorem pStorePrimes_sim {F : Prop} {env : Env} {heap : ℕ → Fin 4 → Heap} (h : HeapOK F heap) {start : ℕ} (hs : start < 2 ^ 64) (stop : ℕ) (primes : Vec ℕ) :
    Sim F (pStorePrimes env heap start stop primes) (storePrimes env start stop primes) (fun a b => a = b) := by
  unfold pStorePrimes storePrimes
  refine Sim.ite (fun _ => ?_) (fun _ => Sim.pure rfl)
  refine (PIter.nextPrime_sim (PIter.make_rel h (by split <;> omega) _)).bind ?_
  rintro ⟨p, it⟩ ⟨q, it'⟩ ⟨hp, hit⟩
  dsimp only at hp hit
  subst hp
  refine Sim.loop (R := fun (a : ℕ × PIter × Vec ℕ) (b : ℕ × Iter × Vec ℕ) => a.1 = b.1 ∧ RIter F a.2.1 b.2.1 ∧ a.2.2 = b.2.2) ?_ _ _ _
    ⟨rfl, hit, rfl⟩
  rintro ⟨p, it, v⟩ ⟨q, it', w⟩ ⟨hp, hit, hv⟩
  dsimp only at hp hit hv
  subst hp hv
  refine Sim.ite (fun _ => (PIter.nextPrime_sim hit).bind ?_) (fun _ => Sim.pure rfl)
  rintro ⟨p, it⟩ ⟨q, it'⟩ ⟨hp, hit⟩
  exact Sim.pure ⟨hp, hit, rfl⟩

theorem pStoreNPrimes_sim {F : Prop} {env : Env} {heap : ℕ → Fin 4 → Heap} (h : HeapOK F heap) (n : ℕ) {start : ℕ} (hs : start < 2 ^ 64) (primes : Vec ℕ) :
    Sim F (pStoreNPrimes env heap n start primes) (storeNPrimes env n start primes) (fun a b => a = b) := by
  unfold pStoreNPrimes storeNPrimes
  refine Sim.ite (fun _ => Sim.pure rfl) (fun _ => ?_)
  refine (PIter.nextPrime_sim (PIter.make_rel h (by split <;> omega) _)).bind ?_
  rintro ⟨p, it⟩ ⟨q, it'⟩ ⟨hp, hit⟩
  dsimp only at hp hit
  subst hp
  refine Sim.bind (Sim.forUp (R := fun _ (a : ℕ × PIter × Vec ℕ) (b : ℕ × Iter × Vec ℕ) => a.1 = b.1 ∧ RIter F a.2.1 b.2.1 ∧ a.2.2 = b.2.2)
    ?_ n 0 _ _ (by omega) (by omega) ⟨rfl, hit, rfl⟩) ?_
  · rintro i ⟨p, it, v⟩ ⟨q, it', w⟩ - ⟨hp, hit, hv⟩
    dsimp only at hp hit hv
    subst hp hv
    refine (PIter.nextPrime_sim hit).bind ?_
    rintro ⟨p, it⟩ ⟨q, it'⟩ ⟨hp, hit⟩
    exact Sim.pure ⟨hp, hit, rfl⟩
  · rintro ⟨p, it, v⟩ ⟨q, it', w⟩ ⟨hp, hit, hv⟩
    dsimp only at hp hit hv
    subst hp hv
    exact Sim.ite (fun _ => Or.inr (Or.inl ⟨_, rfl, rfl⟩)) (fun _ => Sim.pure rfl)

end PS.Psv.Mem
