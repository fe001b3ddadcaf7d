import Verif.Proof.PsvWheel

/-!
# Crossing off with the wheel of 30: EratSmall and EratMedium
-/

namespace PS
namespace Psv

/-! ## Bits of a sieve array -/

/-- Bit `k` of byte `i`. -/
def bitAt (S : Vec Byte) (i k : ℕ) : Bool := (S.get i).getLsbD k

/-- `S'` is `S` without the bits of the numbers in `T`. -/
def Rem (L : ℕ) (S : Vec Byte) (T : ℕ → Prop) (S' : Vec Byte) : Prop :=
  S'.size = S.size ∧ ∀ i < S.size, ∀ k < 8, bitAt S' i k = true ↔ bitAt S i k = true ∧ ¬ T (L + 30 * i + bv k)

theorem Rem.refl {L : ℕ} {S : Vec Byte} {T : ℕ → Prop} (h : ∀ n, ¬ T n) : Rem L S T S :=
  ⟨rfl, fun i _ k _ => by simp [h]⟩

theorem Rem.trans {L : ℕ} {S S' S'' : Vec Byte} {T T' : ℕ → Prop} (h : Rem L S T S') (h' : Rem L S' T' S'') :
    Rem L S (fun n => T n ∨ T' n) S'' := by
  refine ⟨h'.1.trans h.1, fun i hi k hk => ?_⟩
  rw [h'.2 i (h.1 ▸ hi) k hk, h.2 i hi k hk]
  tauto

theorem Rem.congr {L : ℕ} {S S' : Vec Byte} {T T' : ℕ → Prop} (h : Rem L S T S')
    (he : ∀ i < S.size, ∀ k < 8, (T (L + 30 * i + bv k) ↔ T' (L + 30 * i + bv k))) : Rem L S T' S' :=
  ⟨h.1, fun i hi k hk => by rw [h.2 i hi k hk, he i hi k hk]⟩

theorem Rem.congr' {L : ℕ} {S S' : Vec Byte} {T T' : ℕ → Prop} (h : Rem L S T S')
    (he : ∀ n, T n ↔ T' n) : Rem L S T' S' := h.congr (fun _ _ _ _ => he _)

theorem maskOf_bit : ∀ k < 8, ∀ l < 8, (maskOf k).getLsbD l = decide (l ≠ k) := by decide +kernel

theorem unset_rem {L : ℕ} {S : Vec Byte} {i k : ℕ} {m : Byte} {n : ℕ} (hi : i < S.size) (hk : k < 8)
    (hm : m = maskOf k) (hn : L + 30 * i + bv k = n) :
    Ok (unset S i m) (fun S' => Rem L S (fun x => x = n) S') := by
  unfold unset
  rw [Vec.rd_ok hi]
  simp only [ok_bind]
  rw [Vec.wr_ok hi]
  refine ⟨_, rfl, Vec.size_set _ _ _, fun j hj l hl => ?_⟩
  unfold bitAt
  rw [Vec.get_set]
  split
  · next h =>
    obtain ⟨rfl, -⟩ := h
    rw [BitVec.getLsbD_and, hm, maskOf_bit k hk l hl, Bool.and_eq_true, decide_eq_true_iff]
    refine and_congr_right fun _ => not_congr ⟨fun h => by rw [h]; exact hn, fun h => ?_⟩
    rw [← hn] at h
    exact (val_inj (i := i) (j := i) hl hk (by omega)).2
  · next h =>
    refine ⟨fun hb => ⟨hb, fun hc => h ?_⟩, fun hb => hb.1⟩
    rw [← hn] at hc
    exact ⟨(val_inj (i := i) (j := j) hk hl (by omega)).1, hi⟩

/-! ## Multiples -/

/-- `n` is a multiple `p * q` of `p` with `q0 ≤ q < q1` and `q` coprime to the modulus of the wheel. -/
def MultIn (m p q0 q1 n : ℕ) : Prop := ∃ q, q.Coprime m ∧ q0 ≤ q ∧ q < q1 ∧ n = p * q

theorem MultIn.none {m p q n : ℕ} : ¬ MultIn m p q q n := by
  rintro ⟨a, _, h1, h2, _⟩
  omega

theorem MultIn.step {m p q0 q f n : ℕ} (hq : q.Coprime m) (h0 : q0 ≤ q) (hf : 0 < f)
    (hno : ∀ q', q < q' → q' < q + f → ¬ q'.Coprime m) :
    (MultIn m p q0 q n ∨ n = p * q) ↔ MultIn m p q0 (q + f) n := by
  constructor
  · rintro (⟨a, h1, h2, h3, h4⟩ | h)
    · exact ⟨a, h1, h2, by omega, h4⟩
    · exact ⟨q, hq, h0, by omega, h⟩
  · rintro ⟨a, h1, h2, h3, h4⟩
    rcases lt_trichotomy a q with h | h | h
    · exact .inl ⟨a, h1, h2, h, h4⟩
    · exact .inr (by rw [h4, h])
    · exact absurd h1 (hno a h h3)

/-- The tables of `EratSmall` and `EratMedium` agree with the wheel of 30. -/
theorem steps_eq : ∀ wi < 64, smallStep.get wi = ((wheel30.get wi).unsetBit,
    (wheel30.get wi).nextMultipleFactor, (wheel30.get wi).correct) ∧
    mediumStep.get wi = ((wheel30.get wi).unsetBit, (wheel30.get wi).nextMultipleFactor, (wheel30.get wi).correct) ∧
    (wi : ℤ) + (wheel30.get wi).next = ((if wi % 8 = 7 then wi - 7 else wi + 1 : ℕ) : ℤ) ∧
    (wheel30.get wi).nextMultipleFactor ≤ 6 ∧ (wheel30.get wi).correct ≤ 6 := by decide +kernel

theorem unrolled_eq : ∀ r < 8, (smallUnrolled.get (8 * r)).1 = 0 ∧ (smallUnrolled.get (8 * r)).2.1 = 0 ∧
    (∀ j < 8, (smallUnrolled.get (8 * r + j)).2.2 = (wheel30.get (8 * r + j)).unsetBit ∧
      (smallUnrolled.get (8 * r + j)).1 ≤ 28 ∧ (smallUnrolled.get (8 * r + j)).2.1 ≤ 27) ∧
    (∀ j < 7, (smallUnrolled.get (8 * r + (j + 1))).1 =
        (smallUnrolled.get (8 * r + j)).1 + (wheel30.get (8 * r + j)).nextMultipleFactor ∧
      (smallUnrolled.get (8 * r + (j + 1))).2.1 =
        (smallUnrolled.get (8 * r + j)).2.1 + (wheel30.get (8 * r + j)).correct) ∧
    30 = (smallUnrolled.get (8 * r + 7)).1 + (wheel30.get (8 * r + 7)).nextMultipleFactor ∧
    smallLoopAdd.get r = (smallUnrolled.get (8 * r + 7)).2.1 + (wheel30.get (8 * r + 7)).correct ∧
    0 < smallLoopAdd.get r := by
  decide +kernel

theorem tables_size : smallStep.size = 64 ∧ mediumStep.size = 64 ∧ smallUnrolled.size = 64 ∧
    smallLoopAdd.size = 8 ∧ wheel30.size = 64 ∧ wheel210.size = 384 := by decide +kernel

/-- A prime that is crossed off from `q0` on has reached `q`, nothing beyond byte `hi` was touched. -/
structure Walk (L p q0 hi : ℕ) (S0 : Vec Byte) (q idx wi : ℕ) (S : Vec Byte) : Prop where
  pos : At W30 L p q idx wi
  le : q0 ≤ q
  rem : Rem L S0 (MultIn 30 p q0 q) S
  inside : ∀ q', q0 ≤ q' → q'.Coprime 30 → q' < q → p * q' < L + 30 * hi + 7

theorem Walk.wi_lt {L p q0 hi q idx wi : ℕ} {S0 S : Vec Byte} (hp : p.Coprime 30)
    (h : Walk L p q0 hi S0 q idx wi S) : wi < 64 := (h.pos.elem W30_good hp).2.2

/-- One step. -/
theorem Walk.step {L p q0 hi q idx wi : ℕ} {S0 S : Vec Byte} (hp : p.Coprime 30) (hhi : hi ≤ S0.size)
    (h : Walk L p q0 hi S0 q idx wi S) (hidx : idx < hi) :
    Ok (unset S idx (wheel30.get wi).unsetBit) (fun S' =>
      Walk L p q0 hi S0 (q + (wheel30.get wi).nextMultipleFactor)
        (idx + (p / 30 * (wheel30.get wi).nextMultipleFactor + (wheel30.get wi).correct))
        (if wi % 8 = 7 then wi - 7 else wi + 1) S' ∧ 0 < (wheel30.get wi).nextMultipleFactor) := by
  obtain ⟨h1, h2, h3⟩ := h.pos.elem W30_good hp
  have h3 : wi < 64 := h3
  obtain ⟨wi', e1, e2, e3, e4, e5, e6⟩ := h.pos.next W30_good hp
  have h4 := (steps_eq wi h3).2.2.1
  have h5 : wi' = (if wi % 8 = 7 then wi - 7 else wi + 1) := by
    have := e1.symm.trans h4
    exact_mod_cast this
  refine Ok.mono (unset_rem (L := L) (by rw [h.rem.1]; omega) (kOf_lt (p * q)) h2 h.pos.hpos) fun S' hS' => ?_
  refine ⟨⟨?_, by have := h.le; omega, ?_, ?_⟩, e2⟩
  · rw [← h5, mul_comm (p / 30)]
    exact e6
  · exact (h.rem.trans hS').congr' (fun n => MultIn.step h.pos.hq h.le e2 e5)
  · intro q' ha hb hc
    rcases lt_trichotomy q' q with hd | hd | hd
    · exact h.inside q' ha hb hd
    · subst hd
      have := h.pos.hpos
      have := bv_range (kOf_lt (p * q'))
      omega
    · exact absurd hb (e5 q' hd hc)

theorem Walk.measure {L p q0 hi q idx wi : ℕ} {S0 S : Vec Byte} (h : Walk L p q0 hi S0 q idx wi S)
    (hidx : idx < hi) : p * q < L + 30 * hi + 37 := by
  have := h.pos.hpos
  have := bv_range (kOf_lt (p * q))
  omega

/-! ## EratSmall -/

/-- The partial sums of the unrolled loop, at `j = 8` those of the whole loop. -/
def unA (r j : ℕ) : ℕ := if j = 8 then 30 else (smallUnrolled.get (8 * r + j)).1

def unB (r j : ℕ) : ℕ := if j = 8 then smallLoopAdd.get r else (smallUnrolled.get (8 * r + j)).2.1

theorem un_step {r j : ℕ} (hr : r < 8) (hj : j < 8) :
    unA r (j + 1) = unA r j + (wheel30.get (8 * r + j)).nextMultipleFactor ∧
    unB r (j + 1) = unB r j + (wheel30.get (8 * r + j)).correct ∧ unA r j ≤ 28 ∧ unB r j ≤ 27 := by
  obtain ⟨h1, h2, h3, h4, h5, h6, _⟩ := unrolled_eq r hr
  have h7 := h3 j hj
  unfold unA unB
  by_cases h : j = 7
  · subst h
    simp only [if_true, if_neg (show ¬ (7 = 8) by omega)]
    exact ⟨h5, h6, h7.2⟩
  · have := h4 j (by omega)
    rw [if_neg (by omega), if_neg (by omega), if_neg (by omega), if_neg (by omega)]
    exact ⟨this.1, this.2, h7.2⟩

theorem smallUnroll_ok {L p q0 hi q idx r : ℕ} {S0 S : Vec Byte} (hp : p.Coprime 30) (hhi : hi ≤ S0.size)
    (hr : r < 8) (h : Walk L p q0 hi S0 q idx (8 * r) S) (hidx : idx + (p / 30 * 28 + 27) < hi) :
    Ok (smallUnroll (p / 30) r idx S) (fun S' =>
      Walk L p q0 hi S0 (q + 30) (idx + (p / 30 * 30 + smallLoopAdd.get r)) (8 * r) S') := by
  unfold smallUnroll
  refine Ok.mono (forUp_ok (Inv := fun j S' => Walk L p q0 hi S0 (q + unA r j)
    (idx + (p / 30 * unA r j + unB r j)) (8 * r + j % 8) S') ?_ (by omega) ?_) ?_
  · obtain ⟨h1, h2, -⟩ := unrolled_eq r hr
    have a : unA r 0 = 0 := by unfold unA; simpa using h1
    have b : unB r 0 = 0 := by unfold unB; simpa using h2
    rw [a, b]
    simpa using h
  · intro j S' _ hj hS'
    obtain ⟨u1, u2, u3, u4⟩ := un_step hr hj
    obtain ⟨-, -, h3, -⟩ := unrolled_eq r hr
    rw [Vec.rd_ok (by rw [tables_size.2.2.1]; omega)]
    simp only [ok_bind]
    rw [Nat.mod_eq_of_lt hj] at hS'
    rw [(h3 j hj).1]
    have e1 : (smallUnrolled.get (8 * r + j)).1 = unA r j := by unfold unA; rw [if_neg (by omega)]
    have e2 : (smallUnrolled.get (8 * r + j)).2.1 = unB r j := by unfold unB; rw [if_neg (by omega)]
    rw [e1, e2]
    have hb : idx + (p / 30 * unA r j + unB r j) < hi := by
      have : p / 30 * unA r j ≤ p / 30 * 28 := Nat.mul_le_mul_left _ u3
      omega
    refine Ok.mono (hS'.step hp hhi hb) fun S'' hS'' => ?_
    rw [u1, u2]
    have e3 : (if (8 * r + j) % 8 = 7 then 8 * r + j - 7 else 8 * r + j + 1) = 8 * r + (j + 1) % 8 := by
      split <;> omega
    have := hS''.1
    rw [e3] at this
    rw [← add_assoc, show idx + (p / 30 * (unA r j + (wheel30.get (8 * r + j)).nextMultipleFactor) +
      (unB r j + (wheel30.get (8 * r + j)).correct)) = idx + (p / 30 * unA r j + unB r j) +
      (p / 30 * (wheel30.get (8 * r + j)).nextMultipleFactor + (wheel30.get (8 * r + j)).correct) by ring]
    exact this
  · intro S' hS'
    simpa [unA, unB] using hS'

theorem smallInner_ok {L p q0 lo hi q idx r : ℕ} {S0 S : Vec Byte} (hp : p.Coprime 30) (hhi : hi ≤ S0.size)
    (hr : r < 8) (hlo : lo ≤ idx) (h : Walk L p q0 hi S0 q idx (8 * r) S) :
    Ok (smallInner (p / 30) r (max hi (lo + (p / 30 * 28 + 27)) - (p / 30 * 28 + 27)) idx S) (fun t =>
      ∃ q', Walk L p q0 hi S0 q' t.1 (8 * r) t.2 ∧ idx ≤ t.1 ∧ q ≤ q' ∧
        t.1 ≤ max idx (hi + (p / 30 * 2 + smallLoopAdd.get r))) := by
  unfold smallInner
  have hbl := (unrolled_eq r hr).2.2.2.2.2.2
  have hr8 := tables_size.2.2.2.1
  refine loop_ok (fun (t : ℕ × Vec Byte) => ∃ q', Walk L p q0 hi S0 q' t.1 (8 * r) t.2 ∧ idx ≤ t.1 ∧ q ≤ q' ∧
      t.1 ≤ max idx (hi + (p / 30 * 2 + smallLoopAdd.get r)))
    (fun (t : ℕ × Vec Byte) => (max hi (lo + (p / 30 * 28 + 27)) - (p / 30 * 28 + 27)) - t.1) _
    ⟨q, h, le_refl _, le_refl _, by dsimp only; omega⟩ ?_ ?_
  · dsimp only
    omega
  · rintro ⟨i, S'⟩ ⟨q', h1, h2, h3, h4⟩
    dsimp only at h1 h2 h4 ⊢
    split
    · next hlt =>
      have hb : i + (p / 30 * 28 + 27) < hi := by omega
      refine Ok.bind (smallUnroll_ok hp hhi hr h1 hb) (fun S'' hS'' => ?_)
      rw [Vec.rd_ok (by rw [hr8]; exact hr)]
      simp only [ok_bind]
      refine Ok.pure ?_
      refine ⟨⟨q' + 30, hS'', ?_, by omega, ?_⟩, ?_⟩ <;> dsimp only <;> omega
    · exact Ok.pure ⟨q', h1, h2, h3, h4⟩

/-- `loop_ok` with a measure that may depend on ghost state. -/
theorem loop_okm {σ ρ : Type} {fuel : ℕ} {s : σ} {f : σ → M (Step σ ρ)} (Inv : ℕ → σ → Prop) (Q : ρ → Prop) (n : ℕ)
    (h0 : Inv n s) (hv : n < fuel)
    (hs : ∀ n s, Inv n s → Ok (f s) (fun r => match r with
      | .next s' => ∃ n' < n, Inv n' s'
      | .done r => Q r)) : Ok (loop fuel s f) Q := by
  induction fuel generalizing s n with
  | zero => omega
  | succ m ih =>
    unfold loop
    refine Ok.bind (hs n s h0) (fun r hr => ?_)
    cases r with
    | next s' =>
      obtain ⟨n', hn', hI⟩ := hr
      exact ih n' hI (by omega)
    | done r => exact Ok.pure hr

theorem W30_size : W30.size = 8 ∧ W30.modulo = 30 ∧ W30.wheel = wheel30 := ⟨rfl, rfl, rfl⟩

/-- Crossing off one prime in the bytes `lo ≤ i < hi`. -/
theorem smallSwitch_ok {L p q0 lo hi idx wi : ℕ} {S0 : Vec Byte} (hp : p.Coprime 30) (hhi : hi ≤ S0.size)
    (hlo : lo ≤ idx) (hp1 : 0 < p) (h : At W30 L p q0 idx wi) :
    Ok (smallSwitch (p / 30) (max hi (lo + (p / 30 * 28 + 27)) - (p / 30 * 28 + 27)) hi idx wi S0) (fun t =>
      ∃ q, Walk L p q0 hi S0 q (hi + t.1) t.2.1 t.2.2 ∧ hi + t.1 ≤ max idx (hi + (p / 30 * 6 + 50))) := by
  unfold smallSwitch
  have hw0 : Walk L p q0 hi S0 q0 idx wi S0 :=
    ⟨h, le_refl _, Rem.refl (fun n => MultIn.none), fun q' a _ b => by omega⟩
  have hla : ∀ r < 8, smallLoopAdd.get r ≤ 30 := by decide +kernel
  have hss := tables_size.1
  refine loop_okm (fun n (t : ℕ × ℕ × Vec Byte) => ∃ q, Walk L p q0 hi S0 q t.1 t.2.1 t.2.2 ∧ lo ≤ t.1 ∧
      t.1 ≤ max idx (hi + (p / 30 * 6 + 50)) ∧ n = L + 30 * hi + 37 - p * q) _ (L + 30 * hi + 37 - p * q0)
      ⟨q0, hw0, hlo, by dsimp only; omega, rfl⟩ ?_ ?_
  · have := h.hpos
    omega
  · rintro n ⟨i, wi', S⟩ ⟨q, h1, h2, h3, h4⟩
    dsimp only at h1 h2 h3 ⊢
    have hwi := h1.wi_lt hp
    refine Ok.bind (P := fun t => ∃ q', Walk L p q0 hi S0 q' t.1 wi' t.2 ∧ lo ≤ t.1 ∧ q ≤ q' ∧
        t.1 ≤ max idx (hi + (p / 30 * 6 + 50))) ?_ ?_
    · refine Ok.ite (fun hc => ?_) (fun _ => Ok.pure ⟨q, h1, h2, le_refl _, h3⟩)
      have h5 : wi' = 8 * (wi' / 8) := by omega
      have h1' := h1
      rw [h5] at h1'
      refine Ok.mono (smallInner_ok hp hhi (by omega) h2 h1') fun t ht => ?_
      obtain ⟨q', a1, a2, a3, a4⟩ := ht
      rw [← h5] at a1
      have := hla (wi' / 8) (by omega)
      exact ⟨q', a1, by omega, a3, by omega⟩
    · rintro ⟨i', S'⟩ ⟨q', a1, a2, a3, a4⟩
      dsimp only at a1 a2 a4 ⊢
      refine Ok.ite (fun hc => Ok.pure ?_) (fun hc => ?_)
      · refine ⟨q', ?_, ?_⟩ <;> dsimp only
        · rw [show hi + (i' - hi) = i' by omega]
          exact a1
        · omega
      · have h6 := steps_eq wi' hwi
        rw [Vec.rd_ok (by rw [hss]; exact hwi)]
        simp only [ok_bind]
        rw [h6.1]
        refine Ok.bind (a1.step hp hhi (by omega)) (fun S'' hS'' => Ok.pure ?_)
        have hq := hS''.2
        refine ⟨L + 30 * hi + 37 - p * (q' + (wheel30.get wi').nextMultipleFactor), ?_, _, hS''.1, ?_, ?_, rfl⟩ <;>
          try dsimp only
        · have m1 := a1.measure (by omega)
          have : p * q ≤ p * q' := Nat.mul_le_mul_left _ a3
          have : p * q' < p * (q' + (wheel30.get wi').nextMultipleFactor) := Nat.mul_lt_mul_of_pos_left (by omega) hp1
          omega
        · omega
        · have : p / 30 * (wheel30.get wi').nextMultipleFactor ≤ p / 30 * 6 := Nat.mul_le_mul_left _ h6.2.2.2.1
          have := h6.2.2.2.2
          omega

/-- EratMedium's crossing off of one prime. -/
theorem mediumSwitch_ok {L p q0 hi idx wi r : ℕ} {S0 : Vec Byte} (hp : p.Coprime 30) (hhi : hi ≤ S0.size)
    (hp1 : 0 < p) (h : At W30 L p q0 idx wi) (hr : wi / 8 = r) :
    Ok (mediumSwitch r (p / 30) hi idx wi S0) (fun t =>
      ∃ q, Walk L p q0 hi S0 q (hi + t.1) t.2.1 t.2.2 ∧ hi + t.1 ≤ max idx (hi + (p / 30 * 6 + 50))) := by
  unfold mediumSwitch
  rw [if_neg (by omega)]
  have hw0 : Walk L p q0 hi S0 q0 idx wi S0 :=
    ⟨h, le_refl _, Rem.refl (fun n => MultIn.none), fun q' a _ b => by omega⟩
  have hss := tables_size.2.1
  refine loop_okm (fun n (t : ℕ × ℕ × Vec Byte) => ∃ q, Walk L p q0 hi S0 q t.1 t.2.1 t.2.2 ∧
      t.1 ≤ max idx (hi + (p / 30 * 6 + 50)) ∧ n = L + 30 * hi + 37 - p * q) _ (L + 30 * hi + 37 - p * q0)
      ⟨q0, hw0, by dsimp only; omega, rfl⟩ ?_ ?_
  · have := h.hpos
    omega
  · rintro n ⟨i', wi', S'⟩ ⟨q', a1, a4, h4⟩
    dsimp only at a1 a4 ⊢
    have hwi := a1.wi_lt hp
    refine Ok.ite (fun hc => Ok.pure ?_) (fun hc => ?_)
    · refine ⟨q', ?_, ?_⟩ <;> dsimp only
      · rw [show hi + (i' - hi) = i' by omega]
        exact a1
      · omega
    · have h6 := steps_eq wi' hwi
      rw [Vec.rd_ok (by rw [hss]; exact hwi)]
      simp only [ok_bind]
      rw [h6.2.1]
      refine Ok.bind (a1.step hp hhi (by omega)) (fun S'' hS'' => Ok.pure ?_)
      have hq := hS''.2
      refine ⟨L + 30 * hi + 37 - p * (q' + (wheel30.get wi').nextMultipleFactor), ?_, _, hS''.1, ?_, rfl⟩ <;>
        try dsimp only
      · have m1 := a1.measure (by omega)
        have : p * q' < p * (q' + (wheel30.get wi').nextMultipleFactor) := Nat.mul_lt_mul_of_pos_left (by omega) hp1
        omega
      · have : p / 30 * (wheel30.get wi').nextMultipleFactor ≤ p / 30 * 6 := Nat.mul_le_mul_left _ h6.2.2.2.1
        have := h6.2.2.2.2
        omega

end Psv
end PS
