import Verif.Proof.PsvPool
import Verif.Proof.PsvBig

/-!
# C65, C66: the memory pool of the bundled primesieve library
-/

namespace PS.Psv.Mem

/-! ## Vocabulary -/

/-- `n` is a product `p * c` of a sieving prime `p` and a cofactor `c ≥ p` coprime to `m`. -/
def Multiple (m : ℕ) (D : ℕ → Prop) (n : ℕ) : Prop := ∃ p, D p ∧ ∃ c, p ≤ c ∧ c.Coprime m ∧ n = p * c

/-- The number that bit `k` of byte `i` stands for, in the segment that starts at `L`. -/
def number (L i k : ℕ) : ℕ := L + 30 * i + [7, 11, 13, 17, 19, 23, 29, 31].getD k 0

/-- Bit `k` of byte `i` is set. -/
def Bit (S : Vec Byte) (i k : ℕ) : Prop := (S.get i).getLsbD k = true

/-- `S'` is the sieve `S` of the segment at `L` without the multiples up to `stop` of the primes in `D`; beyond
`stop`, some of the multiples may remain. -/
def CrossedOff (m L stop : ℕ) (D : ℕ → Prop) (S S' : Vec Byte) : Prop :=
  S'.size = S.size ∧ ∀ i < S.size, ∀ k < 8,
    (Bit S' i k → Bit S i k) ∧ (Bit S i k → ¬ Multiple m D (number L i k) → Bit S' i k) ∧
    (number L i k ≤ stop → Multiple m D (number L i k) → ¬ Bit S' i k)

/-- A segment: the sieving primes that are added before it and its sieve. -/
abbrev Seg := List ℕ × Vec Byte

/-- The segments follow each other from `L` on; `D` are the primes added before. -/
def Good (m stop : ℕ) : ℕ → (ℕ → Prop) → List Seg → List (Vec Byte) → Prop
  | _, _, [], [] => True
  | L, D, (ps, S) :: segs, S' :: outs =>
    CrossedOff m L stop (fun p => D p ∨ p ∈ ps) S S' ∧ Good m stop (L + 30 * S.size) (fun p => D p ∨ p ∈ ps) segs outs
  | _, _, _, _ => False

/-- EratMedium (src/EratMedium.cpp) used as in src/Erat.cpp and src/PrimeGenerator.cpp: for each segment, primes are added,
then the sieve is crossed off. -/
def mediumRun (al : Alloc) (stop : ℕ) : ℕ → St → List Seg → M (List (Vec Byte) × St)
  | _, t, [] => .ok ([], t)
  | L, t, (ps, S) :: segs => do
    let t ← ps.foldlM (fun t p => mediumAdd al stop p L t) t
    let t ← mediumCrossOff al S.size { t with sieve := S }
    let r ← mediumRun al stop (L + 30 * S.size) t segs
    pure (t.sieve :: r.1, r.2)

/-- EratBig (src/EratBig.cpp), likewise. -/
def bigRun (al : Alloc) (s : EratBig) : ℕ → St → List Seg → M (List (Vec Byte) × St)
  | _, t, [] => .ok ([], t)
  | L, t, (ps, S) :: segs => do
    let t ← ps.foldlM (fun t p => bigAdd al s p L t) t
    let t ← bigCrossOff al s { t with sieve := S }
    let r ← bigRun al s (L + 30 * S.size) t segs
    pure (t.sieve :: r.1, r.2)

/-- The buckets of the linked list that starts at address `a`. -/
inductive Linked (mem : ℕ → Bkt) : ℕ → List ℕ → Prop
  | nil : Linked mem 0 []
  | cons {a : ℕ} {as : List ℕ} : a ≠ 0 → Linked mem (mem a).next as → Linked mem a (a :: as)

/-- Every bucket of every chunk of memory is in exactly one place of exactly one list: the list of empty buckets or one
of the lists of sieving primes. -/
def NoLeak (t : St) : Prop :=
  ∃ (stock : List ℕ) (lists : ℕ → List ℕ), Linked t.pool.mem t.pool.stock stock ∧ stock.Nodup ∧
    (∀ i < t.ptrs.size, (t.ptrs.get i = 0 ∧ lists i = []) ∨
      ∃ a, get (t.ptrs.get i) = .ok a ∧ Linked t.pool.mem a (lists i)) ∧
    (∀ i < t.ptrs.size, (lists i).Nodup) ∧
    (∀ i < t.ptrs.size, ∀ j < t.ptrs.size, i ≠ j → ∀ b ∈ lists i, b ∉ lists j) ∧
    (∀ i < t.ptrs.size, ∀ b ∈ lists i, b ∉ stock) ∧
    (∀ b, t.pool.Has b ↔ b ∈ stock ∨ ∃ i < t.ptrs.size, b ∈ lists i)

/-- Every request to `new` was for at most 16 MiB. -/
def SmallChunks (t : St) : Prop := ∀ c ∈ t.pool.chunks, c.2 ≤ 16 * 1024 * 1024

/-- The bytes that a pool has got from `new`; a pool never gives memory back. -/
def Pool.memory (s : Pool) : ℕ := (s.chunks.map (·.2)).sum

/-! ## Proofs -/

theorem crossedOff_of {m L stop : ℕ} {D : ℕ → Prop} {S S' : Vec Byte} (h : Crossed m L 0 S.size stop D S S') :
    CrossedOff m L stop D S S' := by
  refine ⟨h.size, fun i hi k hk => ⟨h.sub i hi k hk, fun h1 h2 => ?_, fun h1 h2 => ?_⟩⟩
  · by_contra h3
    exact h2 (h.sound i hi k hk h1 (by simpa [Bit, bitAt] using h3))
  · have := h.complete i hi k hk (Nat.zero_le _) hi h1 h2
    unfold bitAt at this
    unfold Bit
    rw [this]
    simp

theorem stk_linked {mem : ℕ → Bkt} {a : ℕ} {as : List ℕ} (h : Stk mem a as) : Linked mem a as := by
  induction h with
  | nil => exact .nil
  | cons h _ ih => exact .cons h ih

theorem chain_linked {mem : ℕ → Bkt} {a : ℕ} {bs : Buckets} {as : List ℕ} (h : Chain mem a bs as) : Linked mem a as := by
  induction h with
  | nil => exact .nil
  | cons h _ _ _ _ ih => exact .cons h ih

variable {al : Alloc} {K T : ℕ}

theorem Rel.noLeak {n : ℕ} {t : St} {t' : Vec Buckets × Vec Byte} (h : Rel al T K n (fun _ => 0) (fun _ => []) 0 [] t t') : NoLeak t := by
  obtain ⟨tag, own, co, so, g⟩ := h.inv.inv
  have hco : co = [] := by
    cases g.chn
    rfl
  have hodd : ∀ j, (j % 2 = 1 ∨ t.ptrs.size ≤ j / 2) → own j = [] := by
    intro j hj
    rcases g.opn j with ⟨-, -, h⟩ | ⟨a, c, cs, as', hB, -, ha, hp, -⟩
    · exact h
    · exfalso
      have : mix t.ptrs (fun _ => 0) j = 0 := by
        unfold mix
        by_cases h2 : j % 2 = 0
        · rw [if_pos h2, get_out (by omega)]
          rfl
        · rw [if_neg h2]
      omega
  refine ⟨so, fun i => own (2 * i), stk_linked g.stk, g.snd, fun i hi => ?_, fun i _ => g.nd _, fun i _ j _ hij b hb hb' => ?_,
    fun i _ b hb hb' => ?_, fun b => ⟨fun hb => ?_, ?_⟩⟩
  · rcases g.opn (2 * i) with ⟨h0, -, h⟩ | ⟨a, c, cs, as', hB, ho, ha, hp, -, hh, hch⟩
    · rw [mix_even] at h0
      exact Or.inl ⟨h0, h⟩
    · rw [mix_even] at hp
      have hHas := (g.tg (2 * i) a (by rw [ho]; exact List.mem_cons_self ..)).2
      refine Or.inr ⟨a, by rw [hp]; exact get_ok (has_mod hHas) hh.1, ?_⟩
      show Linked t.pool.mem a (own (2 * i))
      rw [ho]
      exact .cons ha (chain_linked hch)
  · have h1 := (g.tg _ b hb).1
    rw [(g.tg _ b hb').1] at h1
    have := Tag.lst.inj h1
    omega
  · have h1 := (g.tg _ b hb).1
    rw [(g.stg b hb').1] at h1
    cases h1
  · rcases g.all b hb with h1 | h1 | ⟨j, h1⟩
    · exact Or.inl h1
    · rw [hco] at h1
      exact absurd h1 List.not_mem_nil
    · by_cases hj : j % 2 = 1 ∨ t.ptrs.size ≤ j / 2
      · rw [hodd j hj] at h1
        exact absurd h1 List.not_mem_nil
      · exact Or.inr ⟨j / 2, by omega, by
          show b ∈ own (2 * (j / 2))
          rw [show 2 * (j / 2) = j by omega]
          exact h1⟩
  · rintro (h1 | ⟨i, hi, h1⟩)
    · exact (g.stg b h1).2
    · exact (g.tg _ b h1).2

theorem Rel.smallChunks {n : ℕ} {t : St} {t' : Vec Buckets × Vec Byte} (h : Rel al T K n (fun _ => 0) (fun _ => []) 0 [] t t') :
    SmallChunks t := by
  obtain ⟨tag, own, co, so, g⟩ := h.inv.inv
  exact fun c hc => (g.ch.1 c hc).2

theorem Rel.memory {n : ℕ} {t : St} {t' : Vec Buckets × Vec Byte} (h : Rel al T K n (fun _ => 0) (fun _ => []) 0 [] t t') :
    t.pool.memory ≤ T + 2 ^ 24 := by
  obtain ⟨tag, own, co, so, g⟩ := h.inv.inv
  exact g.ch.2.total

theorem Rel.sieve_set {n : ℕ} {t : St} {b : Vec Buckets} {S S' : Vec Byte} (h : Rel al T K n (fun _ => 0) (fun _ => []) 0 [] t (b, S)) :
    Rel al T K n (fun _ => 0) (fun _ => []) 0 [] { t with sieve := S' } (b, S') := ⟨rfl, h.size, h.cnt, h.inv⟩

theorem Sim.ok {F : Prop} {α β : Type} {m : M α} {m' : M β} {R : α → β → Prop} {P : β → Prop} (h : Sim F m m' R) (hP : Ok m' P) :
    (m = .error badAlloc ∧ F) ∨ ∃ a b, m = .ok a ∧ R a b ∧ P b := by
  obtain ⟨b, hb, hb'⟩ := hP
  rcases h with h | ⟨e, h1, h2⟩ | ⟨a, b', h1, h2, h3⟩
  · exact Or.inl h
  · rw [h2] at hb
    cases hb
  · rw [h2] at hb
    obtain rfl := Except.ok.inj hb
    exact Or.inr ⟨a, _, h1, h3, hb'⟩

theorem mediumAdd_sim {al : Alloc} (hal : al.Valid) {t : St} {s : EratMedium} {S : Vec Byte}
    (hT : cap 128 K ≤ T) (h : Rel al T K 64 (fun _ => 0) (fun _ => []) 0 [] t (s.buckets, S)) (p L : ℕ) :
    Sim (Refused T al) (mediumAdd al s.stop p L t) (s.add p L) (fun u r => Rel al T (K + 1) 64 (fun _ => 0) (fun _ => []) 0 [] u (r.buckets, S)) := by
  unfold mediumAdd EratMedium.add
  refine Sim.same (fun r => ?_)
  match r with
  | none => exact Sim.pure (h.mono (by omega))
  | some (mi, wi) => exact (mediumStore_sim hal hT h p mi wi).bind_right (fun u b hu => Sim.pure hu)

theorem bigAdd_sim {al : Alloc} (hal : al.Valid) {n : ℕ} {t : St} {s : EratBig} {S : Vec Byte}
    (hT : cap (2 * n) K ≤ T) (h : Rel al T K n (fun _ => 0) (fun _ => []) 0 [] t (s.buckets, S)) (p L : ℕ) :
    Sim (Refused T al) (bigAdd al s p L t) (s.add p L) (fun u r => Rel al T (K + 1) n (fun _ => 0) (fun _ => []) 0 [] u (r.buckets, S)) := by
  unfold bigAdd EratBig.add
  refine Sim.same (fun r => ?_)
  match r with
  | none => exact Sim.pure (h.mono (by omega))
  | some (mi, wi) => exact (bigStore_sim hal hT h s p mi wi).bind_right (fun u b hu => Sim.pure hu)

/-! ## C65 -/

/-- The primes that EratMedium takes in the segment at `L`: include/primesieve/Erat.hpp, src/Erat.cpp:112-120. -/
def MediumPrime (L p : ℕ) : Prop := p.Coprime 30 ∧ 1 < p ∧ p ≤ 5 * 2 ^ 22 ∧ p * p < L + 30 * 2 ^ 22 + 7

/-- The hypotheses for each segment. -/
def MediumSegs : ℕ → List Seg → Prop
  | _, [] => True
  | L, (ps, S) :: segs => (∀ p ∈ ps, MediumPrime L p) ∧ L < 2 ^ 64 ∧ MediumSegs (L + 30 * S.size) segs

/-- The number of sieving primes. -/
def primesOf (segs : List Seg) : ℕ := (segs.map (fun s => s.1.length)).sum

theorem mediumAdds_ok {al : Alloc} (hal : al.Valid) {stop L : ℕ} (hstop : stop < 2 ^ 64) (hL : L % 30 = 0) (hL2 : L < 2 ^ 64)
    (ps : List ℕ) : ∀ {K : ℕ} {D : ℕ → Prop} {t : St} {s : EratMedium} {S : Vec Byte}, cap 128 (K + ps.length) ≤ T →
    (∀ p ∈ ps, MediumPrime L p) → s.stop = stop →
    Rel al T K 64 (fun _ => 0) (fun _ => []) 0 [] t (s.buckets, S) → Handles W30 L stop D (bmem s.buckets) → Sorted s.buckets →
    (ps.foldlM (fun t p => mediumAdd al stop p L t) t = .error badAlloc ∧ Refused T al) ∨
    ∃ (u : St) (r : EratMedium), ps.foldlM (fun t p => mediumAdd al stop p L t) t = .ok u ∧ r.stop = stop ∧
      Rel al T (K + ps.length) 64 (fun _ => 0) (fun _ => []) 0 [] u (r.buckets, S) ∧
      Handles W30 L stop (fun p => D p ∨ p ∈ ps) (bmem r.buckets) ∧ Sorted r.buckets := by
  induction ps with
  | nil =>
    intro K D t s S hT _ hs hr hh hb
    refine Or.inr ⟨t, s, rfl, hs, hr, ?_, hb⟩
    simpa using hh
  | cons p ps ih =>
    intro K D t s S hT hp hs hr hh hb
    rw [List.length_cons] at hT
    rw [List.foldlM_cons]
    obtain ⟨h1, h2, h3, h4⟩ := hp p (List.mem_cons_self ..)
    subst hs
    rcases (mediumAdd_sim hal ((cap_mono (by omega)).trans hT) hr p L).ok (EratMedium_add_ok hh hb h1 h2 h3 hL hL2 hstop h4) with e | ⟨u, r, e, hu, hh', hb', hr'⟩
    · left
      refine ⟨?_, e.2⟩
      rw [e.1]
      rfl
    · rw [e, ok_bind]
      rcases ih (K := K + 1) (D := fun x => D x ∨ x = p) (by rw [show K + 1 + ps.length = K + (ps.length + 1) by ring]; exact hT)
        (fun q hq => hp q (List.mem_cons_of_mem _ hq)) (by rw [hr']) hu hh' hb' with e | ⟨v, w, e, k1, k2, k3, k4⟩
      · exact Or.inl e
      · rw [show K + 1 + ps.length = K + (ps.length + 1) by ring] at k2
        refine Or.inr ⟨v, w, e, k1, k2, ?_, k4⟩
        refine cast ?_ k3
        congr 1
        funext x
        simp [or_assoc]

theorem mediumRun_ok {al : Alloc} (hal : al.Valid) {stop : ℕ} (hstop : stop < 2 ^ 64) (segs : List Seg) :
    ∀ {K L : ℕ} {D : ℕ → Prop} {t : St} {s : EratMedium} {S : Vec Byte}, cap 128 (K + primesOf segs + 1022) ≤ T →
    MediumSegs L segs → L % 30 = 0 → s.stop = stop →
    Rel al T K 64 (fun _ => 0) (fun _ => []) 0 [] t (s.buckets, S) → Handles W30 L stop D (bmem s.buckets) → Sorted s.buckets →
    (∀ p, D p → p / 30 ≤ spMax) →
    (mediumRun al stop L t segs = .error badAlloc ∧ Refused T al) ∨
    ∃ outs u, mediumRun al stop L t segs = .ok (outs, u) ∧ Good 30 stop L D segs outs ∧ NoLeak u ∧ SmallChunks u ∧ u.pool.memory ≤ T + 2 ^ 24 := by
  induction segs with
  | nil =>
    intro K L D t s S _ _ _ _ hr _ _ _
    exact Or.inr ⟨[], t, rfl, trivial, hr.noLeak, hr.smallChunks, hr.memory⟩
  | cons seg segs ih =>
    obtain ⟨ps, S0⟩ := seg
    intro K L D t s S hT hseg hL hs hr hh hb hD
    have hc : primesOf ((ps, S0) :: segs) = ps.length + primesOf segs := by simp [primesOf]
    rw [hc] at hT
    obtain ⟨g1, g2, g3⟩ := hseg
    unfold mediumRun
    rcases mediumAdds_ok hal hstop hL g2 ps ((cap_mono (by omega)).trans hT) g1 hs hr hh hb with e | ⟨u, r, e, k1, k2, k3, k4⟩
    · left
      refine ⟨?_, e.2⟩
      rw [e.1]
      rfl
    rw [e, ok_bind]
    have hD' : ∀ p, (D p ∨ p ∈ ps) → p / 30 ≤ spMax := by
      rintro p (hp | hp)
      · exact hD p hp
      · have := (g1 p hp).2.2.1
        unfold spMax
        omega
    subst k1
    rcases (mediumCrossOff_sim hal S0.size ((cap_mono (by omega)).trans hT) (k2.sieve_set (S' := S0))).ok (EratMedium_crossOff_ok (le_refl _) k3 k4 hD')
      with e | ⟨v, w, e, hv, q1, q2, q3, q4⟩
    · left
      refine ⟨?_, e.2⟩
      rw [e.1]
      rfl
    rw [e, ok_bind]
    rcases ih (by rw [← Nat.add_assoc] at hT; exact hT) g3 (by omega) (by rw [q4]) hv q1 q2 hD' with e | ⟨outs, z, e, m1, m2⟩
    · left
      refine ⟨?_, e.2⟩
      rw [e.1]
      rfl
    · right
      rw [e, ok_bind]
      refine ⟨_, _, rfl, ⟨?_, m1⟩, m2⟩
      rw [hv.sieve]
      exact crossedOff_of q3

theorem mediumStart_ok {al : Alloc} (hal : al.Valid) (mem : ℕ → Bkt) {stop L : ℕ} (hstop : stop < 2 ^ 64) (hL : L % 30 = 0)
    (segs : List Seg) (h : MediumSegs L segs) :
    (mediumRun al stop L (mediumInit mem) segs = .error badAlloc ∧ Refused (16384 * (130 + primesOf segs / 1022)) al) ∨
    ∃ outs t, mediumRun al stop L (mediumInit mem) segs = .ok (outs, t) ∧ Good 30 stop L (fun _ => False) segs outs ∧
      NoLeak t ∧ SmallChunks t ∧ t.pool.memory ≤ 16384 * (130 + primesOf segs / 1022) + 2 ^ 24 := by
  have h0 : ∀ i y, ¬ inB (Vec.mk' 64 [] : Vec Buckets) i y := by
    intro i y
    unfold inB
    rw [show (Vec.mk' 64 [] : Vec Buckets).get i = [] from get_mk_default 64 i]
    simp
  exact mediumRun_ok hal hstop segs (K := 0) (D := fun _ => False) (t := mediumInit mem) (s := { stop := stop }) (S := ⟨#[]⟩)
    (by unfold cap; omega) h hL rfl rel_init
    ⟨fun s ⟨i, _, hs⟩ => absurd hs (h0 i s), fun p hp => hp.elim⟩ ⟨rfl, fun i _ y hy => absurd hy (h0 i y)⟩ (fun p hp => hp.elim)

/-- **C65, EratMedium.** Whatever addresses `new` returns and whatever new memory contains, EratMedium with its memory
pool crosses off exactly the multiples of its sieving primes, in every segment, and reads and writes nothing but
buckets of the pool; or `std::bad_alloc` is thrown because `new` refuses a request for at most 16 MiB, although it has granted
no more than 16 KiB for each of 130 lists and every 1022 primes. -/
theorem C65_medium {al : Alloc} (hal : al.Valid) (mem : ℕ → Bkt) {stop L : ℕ} (hstop : stop < 2 ^ 64) (hL : L % 30 = 0)
    (segs : List Seg) (h : MediumSegs L segs) :
    (mediumRun al stop L (mediumInit mem) segs = .error (.thrown "std::bad_alloc") ∧
      ∃ chunks n, Got al (16 * 1024 * (130 + primesOf segs / 1022)) chunks ∧
        (chunks.map (·.2)).sum ≤ 16 * 1024 * (130 + primesOf segs / 1022) ∧
        n ≤ 16 * 1024 * 1024 ∧ al chunks n = none) ∨
    ∃ outs t, mediumRun al stop L (mediumInit mem) segs = .ok (outs, t) ∧ Good 30 stop L (fun _ => False) segs outs := by
  rcases mediumStart_ok hal mem hstop hL segs h with e | ⟨outs, t, e, m1, -⟩
  · exact Or.inl e
  · exact Or.inr ⟨outs, t, e, m1⟩

/-- The hypotheses on the primes of EratBig, for a sieve of `2^e` bytes: src/Erat.cpp:112-120. -/
def BigSegs (e maxP : ℕ) : ℕ → List Seg → Prop
  | _, [] => True
  | L, (ps, S) :: segs => (∀ p ∈ ps, p.Coprime 210 ∧ 5 * 2 ^ e < p ∧ p ≤ maxP ∧ p * p < L + 30 * 2 ^ e + 7) ∧ S.size = 2 ^ e ∧
      L < 2 ^ 64 ∧ BigSegs e maxP (L + 30 * S.size) segs

theorem bigAdds_ok {al : Alloc} (hal : al.Valid) {L e maxP n : ℕ} {s0 : EratBig} (hstop : s0.stop < 2 ^ 64) (he : e ≤ 22)
    (he3 : 6 ≤ 2 ^ e) (hP : maxP < 2 ^ 32) (hL : L % 30 = 0) (hL2 : L < 2 ^ 64)
    (ps : List ℕ) : ∀ {K : ℕ} {D : ℕ → Prop} {t : St} {b : Vec Buckets} {S : Vec Byte}, cap (2 * n) (K + ps.length) ≤ T →
    (∀ p ∈ ps, p.Coprime 210 ∧ 5 * 2 ^ e < p ∧ p ≤ maxP ∧ p * p < L + 30 * 2 ^ e + 7) →
    Rel al T K n (fun _ => 0) (fun _ => []) 0 [] t (b, S) → BigOK L e maxP D { s0 with buckets := b } →
    (ps.foldlM (fun t p => bigAdd al s0 p L t) t = .error badAlloc ∧ Refused T al) ∨
    ∃ (u : St) (b' : Vec Buckets), ps.foldlM (fun t p => bigAdd al s0 p L t) t = .ok u ∧
      Rel al T (K + ps.length) n (fun _ => 0) (fun _ => []) 0 [] u (b', S) ∧ BigOK L e maxP (fun p => D p ∨ p ∈ ps) { s0 with buckets := b' } := by
  induction ps with
  | nil =>
    intro K D t b S hT _ hr hh
    refine Or.inr ⟨t, b, rfl, hr, ?_⟩
    simpa using hh
  | cons p ps ih =>
    intro K D t b S hT hp hr hh
    rw [List.length_cons] at hT
    rw [List.foldlM_cons]
    obtain ⟨h1, h2, h3, h4⟩ := hp p (List.mem_cons_self ..)
    rcases (bigAdd_sim (s := { s0 with buckets := b }) hal ((cap_mono (by omega)).trans hT) hr p L).ok (EratBig_add_ok hh he he3 hP h1 (by omega) h3 hL hL2 hstop h4)
      with e | ⟨u, r, e, hu, hh', hr'⟩
    · left
      refine ⟨?_, e.2⟩
      rw [show bigAdd al s0 p L t = _ from e.1]
      rfl
    · rw [show bigAdd al s0 p L t = _ from e, ok_bind]
      rw [hr'] at hh'
      rcases ih (K := K + 1) (D := fun x => D x ∨ x = p) (by rw [show K + 1 + ps.length = K + (ps.length + 1) by ring]; exact hT)
        (fun q hq => hp q (List.mem_cons_of_mem _ hq)) hu hh' with e | ⟨v, w, e, k1, k2⟩
      · exact Or.inl e
      · rw [show K + 1 + ps.length = K + (ps.length + 1) by ring] at k1
        refine Or.inr ⟨v, w, e, k1, ?_⟩
        refine cast ?_ k2
        congr 1
        funext x
        simp [or_assoc]

theorem bigRun_ok {al : Alloc} (hal : al.Valid) {ex maxP n : ℕ} {s0 : EratBig} (hstop : s0.stop < 2 ^ 64) (he : ex ≤ 22)
    (he3 : 6 ≤ 2 ^ ex) (hP : maxP < 2 ^ 32) (segs : List Seg) :
    ∀ {K L : ℕ} {D : ℕ → Prop} {t : St} {b : Vec Buckets} {S : Vec Byte}, cap (2 * n) (K + primesOf segs + 1022) ≤ T →
    BigSegs ex maxP L segs → L % 30 = 0 →
    Rel al T K n (fun _ => 0) (fun _ => []) 0 [] t (b, S) → BigOK L ex maxP D { s0 with buckets := b } →
    (∀ p, D p → 5 * 2 ^ ex < p ∧ p ≤ maxP) →
    (bigRun al s0 L t segs = .error badAlloc ∧ Refused T al) ∨
    ∃ outs u, bigRun al s0 L t segs = .ok (outs, u) ∧ Good 210 s0.stop L D segs outs ∧ NoLeak u ∧ SmallChunks u ∧ u.pool.memory ≤ T + 2 ^ 24 := by
  induction segs with
  | nil =>
    intro K L D t b S _ _ _ hr _ _
    exact Or.inr ⟨[], t, rfl, trivial, hr.noLeak, hr.smallChunks, hr.memory⟩
  | cons seg segs ih =>
    obtain ⟨ps, S0⟩ := seg
    intro K L D t b S hT hseg hL hr hh hD
    have hc : primesOf ((ps, S0) :: segs) = ps.length + primesOf segs := by simp [primesOf]
    rw [hc] at hT
    obtain ⟨g1, g0, g2, g3⟩ := hseg
    unfold bigRun
    rcases bigAdds_ok hal hstop he he3 hP hL g2 ps ((cap_mono (by omega)).trans hT) g1 hr hh with e | ⟨u, b', e, k2, k3⟩
    · left
      refine ⟨?_, e.2⟩
      rw [e.1]
      rfl
    rw [e, ok_bind]
    have hD' : ∀ p, (D p ∨ p ∈ ps) → 5 * 2 ^ ex < p ∧ p ≤ maxP := by
      rintro p (hp | hp)
      · exact hD p hp
      · exact ⟨(g1 p hp).2.1, (g1 p hp).2.2.1⟩
    rcases (bigCrossOff_sim (s := { s0 with buckets := b' }) hal ((cap_mono (by omega)).trans hT) (k2.sieve_set (S' := S0))).ok
      (EratBig_crossOff_ok k3 he (by rw [g0]) hD' he3 hP) with e | ⟨v, w, e, hv, q1, q2, q4⟩
    · left
      refine ⟨?_, e.2⟩
      rw [show bigCrossOff al s0 { u with sieve := S0 } = _ from e.1]
      rfl
    rw [show bigCrossOff al s0 { u with sieve := S0 } = _ from e, ok_bind]
    rw [q4] at q1
    rw [← g0] at q1 q2
    rcases ih (by rw [← Nat.add_assoc] at hT; exact hT) g3 (by omega) hv q1 hD' with e | ⟨outs, z, e, m1, m2⟩
    · left
      refine ⟨?_, e.2⟩
      rw [e.1]
      rfl
    · right
      rw [e, ok_bind]
      refine ⟨_, _, rfl, ⟨?_, m1⟩, m2⟩
      rw [hv.sieve]
      exact crossedOff_of q2

/-- The number of lists of EratBig. -/
def bigLists (e maxP : ℕ) : ℕ := (2 ^ e - 1 + (maxP / 30 * 10 + 10)) / 2 ^ e + 1

theorem bigInit_ok {e maxP stop L : ℕ} (he : e ≤ 22) (s : EratBig) :
    Ok (s.init stop (2 ^ e) maxP) (fun r => BigOK L e maxP (fun _ => False) r ∧ r.stop = stop ∧
      r.buckets = Vec.mk' r.buckets.size [] ∧ r.buckets.size = bigLists e maxP) := by
  refine Ok.mono (Ok.and (EratBig_init_ok (L := L) he) (Q := fun r => r.buckets = Vec.mk' r.buckets.size [] ∧ r.buckets.size = bigLists e maxP) ?_) (fun r hr => ?_)
  · obtain ⟨r, hr, -⟩ := EratBig_init_ok (L := L) (maxP := maxP) (stop := stop) (s := s) he
    refine Ok.of_eq hr ?_
    unfold EratBig.init at hr
    cases hw : W210.wheel.rd 0 with
    | error x =>
      rw [hw] at hr
      cases hr
    | ok x =>
      rw [hw, ok_bind] at hr
      obtain rfl := Except.ok.inj hr
      rw [Vec.rd_ok (by rw [W210_size.2.2.1, W210_size.2.2.2.1]; norm_num)] at hw
      obtain rfl := Except.ok.inj hw
      dsimp only
      rw [Vec.size_mk', W210_size.2.2.1, W210_size.2.2.2.2, ilog2_pow e (by omega), Nat.shiftRight_eq_div_pow]
      exact ⟨rfl, rfl⟩
  · exact ⟨hr.1.1, hr.1.2.1, hr.2⟩

/-- EratBig from its `init` on. -/
def bigStart (al : Alloc) (mem : ℕ → Bkt) (stop sieveSize maxP L : ℕ) (segs : List Seg) : M (List (Vec Byte) × St) := do
  let s ← EratBig.init {} stop sieveSize maxP
  bigRun al s L (bigInit mem s) segs

theorem bigStart_ok {al : Alloc} (hal : al.Valid) (mem : ℕ → Bkt) {e maxP stop L : ℕ} (hstop : stop < 2 ^ 64) (hL : L % 30 = 0)
    (he : e ≤ 22) (he3 : 6 ≤ 2 ^ e) (hP : maxP < 2 ^ 32) (segs : List Seg) (h : BigSegs e maxP L segs) :
    (bigStart al mem stop (2 ^ e) maxP L segs = .error badAlloc ∧
      Refused (16384 * (2 * bigLists e maxP + 2 + primesOf segs / 1022)) al) ∨
    ∃ outs t, bigStart al mem stop (2 ^ e) maxP L segs = .ok (outs, t) ∧ Good 210 stop L (fun _ => False) segs outs ∧
      NoLeak t ∧ SmallChunks t ∧ t.pool.memory ≤ 16384 * (2 * bigLists e maxP + 2 + primesOf segs / 1022) + 2 ^ 24 := by
  obtain ⟨s, e1, h1, h2, h3, h4⟩ := bigInit_ok (maxP := maxP) (stop := stop) (L := L) he {}
  unfold bigStart
  rw [e1, ok_bind]
  subst h2
  refine bigRun_ok (n := s.buckets.size) (K := 0) (b := s.buckets) (S := ⟨#[]⟩) hal hstop he he3 hP segs (by rw [h4]; unfold cap; omega) h hL ?_ h1
    (fun p hp => hp.elim)
  have := rel_init (al := al) (T := 16384 * (2 * bigLists e maxP + 2 + primesOf segs / 1022)) (mem := mem) (n := s.buckets.size) (S := ⟨#[]⟩)
  rw [← h3] at this
  exact this

/-- **C65, EratBig.** The same for EratBig with a sieve of `2^e` bytes and sieving primes up to `maxP`. -/
theorem C65_big {al : Alloc} (hal : al.Valid) (mem : ℕ → Bkt) {e maxP stop L : ℕ} (hstop : stop < 2 ^ 64) (hL : L % 30 = 0)
    (he : e ≤ 22) (he3 : 6 ≤ 2 ^ e) (hP : maxP < 2 ^ 32) (segs : List Seg) (h : BigSegs e maxP L segs) :
    (bigStart al mem stop (2 ^ e) maxP L segs = .error (.thrown "std::bad_alloc") ∧
      ∃ chunks n, Got al (16 * 1024 * (2 * bigLists e maxP + 2 + primesOf segs / 1022)) chunks ∧
        (chunks.map (·.2)).sum ≤ 16 * 1024 * (2 * bigLists e maxP + 2 + primesOf segs / 1022) ∧
        n ≤ 16 * 1024 * 1024 ∧ al chunks n = none) ∨
    ∃ outs t, bigStart al mem stop (2 ^ e) maxP L segs = .ok (outs, t) ∧ Good 210 stop L (fun _ => False) segs outs := by
  rcases bigStart_ok hal mem hstop hL he he3 hP segs h with e | ⟨outs, t, e, m1, -⟩
  · exact Or.inl e
  · exact Or.inr ⟨outs, t, e, m1⟩

/-! ## C66 -/

/-- **C66, EratMedium.** After any sequence of segments every bucket of the memory obtained from `new` is in exactly
one list, and no request was for more than 16 MiB. -/
theorem C66_medium {al : Alloc} (hal : al.Valid) (mem : ℕ → Bkt) {stop L : ℕ} (hstop : stop < 2 ^ 64) (hL : L % 30 = 0)
    (segs : List Seg) (h : MediumSegs L segs) {outs : List (Vec Byte)} {t : St}
    (hr : mediumRun al stop L (mediumInit mem) segs = .ok (outs, t)) : NoLeak t ∧ SmallChunks t := by
  rcases mediumStart_ok hal mem hstop hL segs h with e | ⟨outs', t', e, -, m2⟩
  · rw [e.1] at hr
    cases hr
  · rw [e] at hr
    obtain ⟨-, rfl⟩ := Prod.mk.inj (Except.ok.inj hr)
    exact ⟨m2.1, m2.2.1⟩

/-- **C66, EratBig.** The same for EratBig. -/
theorem C66_big {al : Alloc} (hal : al.Valid) (mem : ℕ → Bkt) {e maxP stop L : ℕ} (hstop : stop < 2 ^ 64) (hL : L % 30 = 0)
    (he : e ≤ 22) (he3 : 6 ≤ 2 ^ e) (hP : maxP < 2 ^ 32) (segs : List Seg) (h : BigSegs e maxP L segs)
    {outs : List (Vec Byte)} {t : St} (hr : bigStart al mem stop (2 ^ e) maxP L segs = .ok (outs, t)) :
    NoLeak t ∧ SmallChunks t := by
  rcases bigStart_ok hal mem hstop hL he he3 hP segs h with e | ⟨outs', t', e, -, m2⟩
  · rw [e.1] at hr
    cases hr
  · rw [e] at hr
    obtain ⟨-, rfl⟩ := Prod.mk.inj (Except.ok.inj hr)
    exact ⟨m2.1, m2.2.1⟩

/-! ## C75 -/

/-- **C75, EratMedium.** After any sequence of segments the pool has got no more than 16 KiB for each of 130 lists and every
1022 primes, and 16 MiB. -/
theorem C75_medium {al : Alloc} (hal : al.Valid) (mem : ℕ → Bkt) {stop L : ℕ} (hstop : stop < 2 ^ 64) (hL : L % 30 = 0)
    (segs : List Seg) (h : MediumSegs L segs) {outs : List (Vec Byte)} {t : St}
    (hr : mediumRun al stop L (mediumInit mem) segs = .ok (outs, t)) :
    (t.pool.chunks.map (·.2)).sum ≤ 16 * 1024 * (130 + (segs.map fun s => s.1.length).sum / 1022) + 16 * 1024 * 1024 := by
  rcases mediumStart_ok hal mem hstop hL segs h with e | ⟨outs', t', e, -, m2⟩
  · rw [e.1] at hr
    cases hr
  · rw [e] at hr
    obtain ⟨-, rfl⟩ := Prod.mk.inj (Except.ok.inj hr)
    exact m2.2.2

/-- **C75, EratBig.** The same for EratBig, whose number of lists depends on the largest prime and on the size of the sieve. -/
theorem C75_big {al : Alloc} (hal : al.Valid) (mem : ℕ → Bkt) {e maxP stop L : ℕ} (hstop : stop < 2 ^ 64) (hL : L % 30 = 0)
    (he : e ≤ 22) (he3 : 6 ≤ 2 ^ e) (hP : maxP < 2 ^ 32) (segs : List Seg) (h : BigSegs e maxP L segs)
    {outs : List (Vec Byte)} {t : St} (hr : bigStart al mem stop (2 ^ e) maxP L segs = .ok (outs, t)) :
    (t.pool.chunks.map (·.2)).sum ≤
      16 * 1024 * (2 * (maxP / 3 / 2 ^ e + 5) + (segs.map fun s => s.1.length).sum / 1022) + 16 * 1024 * 1024 := by
  rcases bigStart_ok hal mem hstop hL he he3 hP segs h with e1 | ⟨outs', t', e1, -, m2⟩
  · rw [e1.1] at hr
    cases hr
  · rw [e1] at hr
    obtain ⟨-, rfl⟩ := Prod.mk.inj (Except.ok.inj hr)
    refine m2.2.2.trans (Nat.add_le_add_right (Nat.mul_le_mul_left _ (Nat.add_le_add_right ?_ _)) _)
    have : bigLists e maxP ≤ maxP / 3 / 2 ^ e + 4 := by
      unfold bigLists
      have hpos : 0 < 2 ^ e := Nat.two_pow_pos _
      have h1 : 2 ^ e - 1 + (maxP / 30 * 10 + 10) ≤ maxP / 3 + 3 * 2 ^ e := by omega
      have h2 := (Nat.div_le_div_right (c := 2 ^ e) h1)
      rw [Nat.add_mul_div_right _ _ hpos] at h2
      omega
    omega

/-! ## Non-vacuity -/

/-- An allocator: the first free address behind all chunks; the first chunk is not aligned. -/
def bump : Alloc := fun chunks n =>
  let a := chunks.foldr (fun c m => max (c.1 + c.2) m) 1
  if a + n < 2 ^ 64 then some a else none

theorem bump_valid : bump.Valid := by
  intro chunks n a h
  unfold bump at h
  dsimp only at h
  split at h
  case isFalse => cases h
  case isTrue hlt =>
    obtain rfl := Option.some.inj h
    clear h
    refine ⟨?_, hlt, fun c hc => Or.inr ?_⟩
    · clear hlt
      induction chunks with
      | nil => decide
      | cons c cs ih => exact lt_of_lt_of_le ih (le_max_right _ _)
    · clear hlt
      induction chunks with
      | nil => exact absurd hc List.not_mem_nil
      | cons d cs ih =>
        rcases List.mem_cons.1 hc with rfl | hc
        · exact le_max_left _ _
        · exact le_trans (ih hc) (le_max_right _ _)

/-- New memory with some contents. -/
def mem0 : ℕ → Bkt := fun a => ⟨a, a, fun i => ⟨i, a⟩⟩

def segs0 : List Seg := [([7, 11], Vec.mk' 3 0xff#8), ([13], Vec.mk' 3 0xff#8)]

/-- Non-vacuity of C65 and C66, EratMedium: two segments. -/
example : MediumSegs 0 segs0 ∧ (mediumRun bump 1000 0 (mediumInit mem0) segs0).isOk = true := by
  refine ⟨⟨?_, by norm_num, ?_, by show 0 + 30 * 3 < _; norm_num, trivial⟩, by decide +kernel⟩
  · intro p hp
    simp only [List.mem_cons, List.not_mem_nil, or_false] at hp
    unfold MediumPrime
    rcases hp with rfl | rfl <;> exact ⟨by decide, by norm_num, by norm_num, by norm_num⟩
  · intro p hp
    simp only [List.mem_cons, List.not_mem_nil, or_false] at hp
    unfold MediumPrime
    rcases hp with rfl
    exact ⟨by decide, by norm_num, by norm_num, by norm_num⟩

theorem bump_got {cs : List (ℕ × ℕ)} (h : Got bump T cs) : cs.foldr (fun c m => max (c.1 + c.2) m) 1 = (cs.map (·.2)).sum + 1 := by
  induction h with
  | nil => rfl
  | @cons cs a n _ _ _ _ ha ih =>
    unfold bump at ha
    dsimp only at ha
    split at ha
    case isFalse => cases ha
    case isTrue =>
      have := Option.some.inj ha
      rw [List.foldr_cons, ih, List.map_cons, List.sum_cons]
      dsimp only
      rw [← this, ih]
      omega

/-- `bump` grants 2^63 bytes. -/
theorem bump_grants {cs : List (ℕ × ℕ)} (h : Got bump T cs) (hs : (cs.map (·.2)).sum ≤ 2 ^ 63) {n : ℕ} (hn : n ≤ 16 * 1024 * 1024) :
    bump cs n ≠ none := by
  unfold bump
  dsimp only
  rw [bump_got h, if_pos (by omega)]
  exact Option.some_ne_none _

/-- The bound of C75 for this run is 18 MiB; the pool has got one chunk of 512 KiB. -/
example : (mediumRun bump 1000 0 (mediumInit mem0) segs0).toOption.map (fun r => (r.2.pool.chunks.map (·.2)).sum) = some (512 * 1024) ∧
    16 * 1024 * (130 + (segs0.map fun s => s.1.length).sum / 1022) + 16 * 1024 * 1024 = 18907136 :=
  ⟨by decide +kernel, by decide⟩

/-- So the first case of C65 does not occur with it. -/
example (T : ℕ) : ¬ ∃ chunks n, Got bump T chunks ∧ (chunks.map (·.2)).sum ≤ 16 * 1024 * (130 + primesOf segs0 / 1022) ∧
    n ≤ 16 * 1024 * 1024 ∧ bump chunks n = none := by
  rintro ⟨cs, n, h1, h2, h3, h4⟩
  refine bump_grants h1 (h2.trans ?_) h3 h4
  have : primesOf segs0 = 3 := rfl
  rw [this]
  norm_num

def segs1 : List Seg := [([41], Vec.mk' 8 0xff#8), ([43], Vec.mk' 8 0xff#8)]

/-- Non-vacuity of C65 and C66, EratBig: two segments. -/
example : BigSegs 3 43 1680 segs1 ∧ (bigStart bump mem0 3000 (2 ^ 3) 43 1680 segs1).isOk = true := by
  refine ⟨⟨?_, rfl, by norm_num, ?_, rfl, by show 1680 + 30 * 8 < _; norm_num, trivial⟩, by decide +kernel⟩
  · intro p hp
    simp only [List.mem_cons, List.not_mem_nil, or_false] at hp
    rcases hp with rfl
    exact ⟨by decide, by norm_num, by norm_num, by norm_num⟩
  · intro p hp
    simp only [List.mem_cons, List.not_mem_nil, or_false] at hp
    rcases hp with rfl
    show Nat.Coprime 43 210 ∧ 5 * 2 ^ 3 < 43 ∧ 43 ≤ 43 ∧ 43 * 43 < 1680 + 30 * 8 + 30 * 2 ^ 3 + 7
    exact ⟨by decide, by norm_num, by norm_num, by norm_num⟩

end PS.Psv.Mem
