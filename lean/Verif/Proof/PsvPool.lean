import Verif.Model.PsvPool
import Mathlib.Data.List.Nodup
import Mathlib.Algebra.BigOperators.Group.Finset.Basic
import Mathlib.Algebra.BigOperators.Group.Finset.Defs
import Mathlib.Data.List.Perm.Subperm
import Mathlib.Tactic.Ring

/-!
# lib/primesieve: the memory pool implements lists of buckets
-/

namespace PS.Psv.Mem

/-! ## Lists in memory -/

/-- The array of the bucket at address `a` starts with the elements of `c`. -/
def Holds (mem : ℕ → Bkt) (a : ℕ) (c : List SievingPrime) : Prop :=
  c.length ≤ 1022 ∧ ∀ i (h : i < c.length), (mem a).primes i = c[i]

/-- A linked list of buckets whose ends are set, from address `a` on; `as` are the addresses of its buckets. -/
inductive Chain (mem : ℕ → Bkt) : ℕ → Buckets → List ℕ → Prop
  | nil : Chain mem 0 [] []
  | cons {a : ℕ} {c : List SievingPrime} {cs : Buckets} {as : List ℕ} : a ≠ 0 → 1 ≤ c.length →
      (mem a).end_ = a + 16 + 8 * c.length → Holds mem a c → Chain mem (mem a).next cs as → Chain mem a (c :: cs) (a :: as)

/-- `p` is the pointer that stands for a list of buckets: the address of the next free element of the first one. -/
def Open (mem : ℕ → Bkt) (p : ℕ) (bs : Buckets) (as : List ℕ) : Prop :=
  (p = 0 ∧ bs = [] ∧ as = []) ∨
  ∃ a c cs as', bs = c :: cs ∧ as = a :: as' ∧ a ≠ 0 ∧ p = a + 16 + 8 * c.length ∧ 1 ≤ c.length ∧ Holds mem a c ∧
    Chain mem (mem a).next cs as'

/-- The linked list of empty buckets. -/
inductive Stk (mem : ℕ → Bkt) : ℕ → List ℕ → Prop
  | nil : Stk mem 0 []
  | cons {a : ℕ} {as : List ℕ} : a ≠ 0 → Stk mem (mem a).next as → Stk mem a (a :: as)

theorem Holds.congr {mem mem' : ℕ → Bkt} {a : ℕ} {c : List SievingPrime} (h : Holds mem a c)
    (e : (mem' a).primes = (mem a).primes) : Holds mem' a c := ⟨h.1, fun i hi => by rw [e]; exact h.2 i hi⟩

theorem Chain.congr {mem mem' : ℕ → Bkt} {a : ℕ} {bs : Buckets} {as : List ℕ} (h : Chain mem a bs as)
    (e : ∀ b ∈ as, mem' b = mem b) : Chain mem' a bs as := by
  induction h with
  | nil => exact .nil
  | cons h1 h2 h3 h4 _ ih =>
    have ea := e _ (List.mem_cons_self ..)
    refine .cons h1 h2 (by rw [ea]; exact h3) (h4.congr (by rw [ea])) ?_
    rw [ea]
    exact ih (fun b hb => e b (List.mem_cons_of_mem _ hb))

theorem Open.congr {mem mem' : ℕ → Bkt} {p : ℕ} {bs : Buckets} {as : List ℕ} (h : Open mem p bs as)
    (e : ∀ b ∈ as, mem' b = mem b) : Open mem' p bs as := by
  rcases h with h | ⟨a, c, cs, as', rfl, rfl, h0, h1, h2, h3, h4⟩
  · exact Or.inl h
  · have ea := e _ (List.mem_cons_self ..)
    refine Or.inr ⟨a, c, cs, as', rfl, rfl, h0, h1, h2, h3.congr (by rw [ea]), ?_⟩
    rw [ea]
    exact h4.congr (fun b hb => e b (List.mem_cons_of_mem _ hb))

theorem Stk.congr {mem mem' : ℕ → Bkt} {a : ℕ} {as : List ℕ} (h : Stk mem a as)
    (e : ∀ b ∈ as, mem' b = mem b) : Stk mem' a as := by
  induction h with
  | nil => exact .nil
  | cons h1 _ ih =>
    refine .cons h1 ?_
    rw [e _ (List.mem_cons_self ..)]
    exact ih (fun b hb => e b (List.mem_cons_of_mem _ hb))

/-! ## The invariant -/

/-- Where a bucket belongs. -/
inductive Tag
  | stock
  | cur
  | lst (i : ℕ)

/-- Chunks of memory that `new` has returned one after the other, in the sizes that the pool asks for, each at a time when the pool
had got at most `T` bytes. -/
inductive Got (al : Alloc) (T : ℕ) : List (ℕ × ℕ) → Prop
  | nil : Got al T []
  | cons {cs : List (ℕ × ℕ)} {a n : ℕ} : Got al T cs → (cs.map (·.2)).sum ≤ T → 64 * 8192 ≤ n → n ≤ 2 ^ 24 → al cs n = some a → Got al T ((a, n) :: cs)

/-- The lists `B i` are in memory at `P i`, the list `cl` with ends set at `ca`; all buckets are different. -/
structure Ghost (al : Alloc) (T : ℕ) (s : Pool) (P : ℕ → ℕ) (B : ℕ → Buckets) (ca : ℕ) (cl : Buckets) (tag : ℕ → Tag) (own : ℕ → List ℕ)
    (co so : List ℕ) : Prop where
  opn : ∀ i, Open s.mem (P i) (B i) (own i)
  nd : ∀ i, (own i).Nodup
  tg : ∀ i, ∀ b ∈ own i, tag b = .lst i ∧ s.Has b
  chn : Chain s.mem ca cl co
  cnd : co.Nodup
  ctg : ∀ b ∈ co, tag b = .cur ∧ s.Has b
  stk : Stk s.mem s.stock so
  snd : so.Nodup
  stg : ∀ b ∈ so, tag b = .stock ∧ s.Has b
  lo : 64 ≤ s.count
  hi : s.count ≤ 2048
  ch : (∀ c ∈ s.chunks, c.1 + c.2 < 2 ^ 64 ∧ c.2 ≤ 2 ^ 24) ∧ Got al T s.chunks
  all : ∀ b, s.Has b → b ∈ so ∨ b ∈ co ∨ ∃ i, b ∈ own i

def Inv (al : Alloc) (T : ℕ) (s : Pool) (P : ℕ → ℕ) (B : ℕ → Buckets) (ca : ℕ) (cl : Buckets) : Prop :=
  ∃ tag own co so, Ghost al T s P B ca cl tag own co so

variable {al : Alloc} {T : ℕ}

/-- The pool with the bucket at `a` replaced. -/
def upd (s : Pool) (a : ℕ) (v : Bkt) : Pool := { s with mem := fun b => if b = a then v else s.mem b }

theorem upd_self {s : Pool} {a : ℕ} {v : Bkt} : (upd s a v).mem a = v := if_pos rfl

theorem upd_ne {s : Pool} {a b : ℕ} {v : Bkt} (h : b ≠ a) : (upd s a v).mem b = s.mem b := if_neg h

theorem has_upd {s : Pool} {a b : ℕ} {v : Bkt} (h : s.Has b) : (upd s a v).Has b := h

theorem rdB_ok {s : Pool} {b : ℕ} (h : s.Has b) : rdB s b = .ok (s.mem b) := by unfold rdB; rw [if_pos h]

theorem wrB_ok {s : Pool} {b : ℕ} {v : Bkt} (h : s.Has b) :
    wrB s b v = .ok (upd s b v) := by unfold wrB; rw [if_pos h]; rfl

theorem setNext_ok {s : Pool} {b n : ℕ} (h : s.Has b) :
    setNext s b n = .ok (upd s b { s.mem b with next := n }) := by
  unfold setNext
  rw [rdB_ok h, ok_bind, wrB_ok h]

theorem setEnd_ok {s : Pool} {b n : ℕ} (h : s.Has b) :
    setEnd s b n = .ok (upd s b { s.mem b with end_ := n }) := by
  unfold setEnd
  rw [rdB_ok h, ok_bind, wrB_ok h]

theorem has_mod {s : Pool} {b : ℕ} (h : s.Has b) : b % 8192 = 0 := h.2.1

theorem has_ne {s : Pool} {b : ℕ} (h : s.Has b) : b ≠ 0 := h.1

theorem get_ok {a k : ℕ} (ha : a % 8192 = 0) (hk : k ≤ 1022) : get (a + 16 + 8 * k) = .ok a := by
  unfold get bucketBytes
  rw [csub_ok (by omega), ok_bind, pure_eq_ok]
  congr 1
  omega

theorem slot_ok {a k : ℕ} (ha : a % 8192 = 0) (hk : k < 1022) : slot (a + 16 + 8 * k) = .ok (a, k) := by
  unfold slot bucketBytes
  rw [if_pos (by omega)]
  congr 2 <;> omega

theorem incr_ok {a k : ℕ} (h : a + 8192 < 2 ^ 64) (hk : k < 1022) : incr (a + 16 + 8 * k) = a + 16 + 8 * (k + 1) := by
  unfold incr
  rw [Nat.mod_eq_of_lt (by omega)]
  ring

theorem isFull_iff {a k : ℕ} (ha : a % 8192 = 0) (hk : k ≤ 1022) : isFull (a + 16 + 8 * k) = decide (k = 1022) := by
  unfold isFull bucketBytes
  congr 1
  rw [eq_iff_iff]
  omega

theorem rdS_ok {s : Pool} {a k : ℕ} (h : s.Has a) (hk : k < 1022) : rdS s (a + 16 + 8 * k) = .ok ((s.mem a).primes k) := by
  unfold rdS
  rw [slot_ok (has_mod h) hk, ok_bind]
  dsimp only
  rw [rdB_ok h, ok_bind]
  rfl

theorem wrS_ok {s : Pool} {a k : ℕ} {x : SievingPrime} (h : s.Has a) (hk : k < 1022) : wrS s (a + 16 + 8 * k) x =
    .ok (upd s a { s.mem a with primes := fun j => if j = k then x else (s.mem a).primes j }) := by
  unfold wrS
  rw [slot_ok (has_mod h) hk, ok_bind]
  dsimp only
  rw [rdB_ok h, ok_bind, wrB_ok h]

theorem has_lt {s : Pool} {b : ℕ} (h : s.Has b) (hc : ∀ c ∈ s.chunks, c.1 + c.2 < 2 ^ 64 ∧ c.2 ≤ 2 ^ 24) : b + 8192 < 2 ^ 64 := by
  obtain ⟨-, -, c, h1, h2, h3⟩ := h
  exact lt_of_le_of_lt h3 (hc c h1).1

/-! ## Rearranging the lists -/

theorem Inv.perm {s : Pool} {P P' : ℕ → ℕ} {B B' : ℕ → Buckets} {ca : ℕ} {cl : Buckets} (h : Inv al T s P B ca cl)
    (σ τ : ℕ → ℕ) (hσ : ∀ i, σ (τ i) = i) (hτ : ∀ i, τ (σ i) = i) (hP : ∀ i, P' i = P (σ i)) (hB : ∀ i, B' i = B (σ i)) :
    Inv al T s P' B' ca cl := by
  obtain ⟨tag, own, co, so, g⟩ := h
  refine ⟨fun b => match tag b with | .lst i => .lst (τ i) | t => t, fun i => own (σ i), co, so, ?_⟩
  refine ⟨fun i => ?_, fun i => g.nd _, fun i b hb => ?_, g.chn, g.cnd, fun b hb => ?_, g.stk, g.snd, fun b hb => ?_,
    g.lo, g.hi, g.ch, fun b hb => ?_⟩
  · rw [hP, hB]
    exact g.opn _
  · obtain ⟨h1, h2⟩ := g.tg _ b hb
    refine ⟨?_, h2⟩
    rw [h1]
    exact congrArg Tag.lst (hτ i)
  · obtain ⟨h1, h2⟩ := g.ctg b hb
    exact ⟨by rw [h1], h2⟩
  · obtain ⟨h1, h2⟩ := g.stg b hb
    exact ⟨by rw [h1], h2⟩
  · rcases g.all b hb with h | h | ⟨i, h⟩
    · exact Or.inl h
    · exact Or.inr (Or.inl h)
    · exact Or.inr (Or.inr ⟨τ i, by rw [hσ]; exact h⟩)

/-! ## close and freeBucket -/

theorem Inv.close {s : Pool} {P : ℕ → ℕ} {B : ℕ → Buckets} (h : Inv al T s P B 0 []) (i : ℕ) (hp : P i ≠ 0) :
    ∃ b s', Mem.close s (P i) = .ok (b, s') ∧ s'.chunks = s.chunks ∧
      Inv al T s' (fun j => if j = i then 0 else P j) (fun j => if j = i then [] else B j) b (B i) := by
  obtain ⟨tag, own, co, so, g⟩ := h
  rcases g.opn i with ⟨h0, -⟩ | ⟨a, c, cs, as', hB, hown, ha, hpa, hc, hh, hch⟩
  · exact absurd h0 hp
  have hmem : a ∈ own i := by rw [hown]; exact List.mem_cons_self ..
  obtain ⟨hta, hHas⟩ := g.tg i a hmem
  refine ⟨a, upd s a { s.mem a with end_ := P i }, ?_, rfl, ?_⟩
  · unfold Mem.close
    rw [hpa, get_ok (has_mod hHas) hh.1, ok_bind, setEnd_ok hHas, ok_bind]
    rfl
  have hnd := g.nd i
  rw [hown, List.nodup_cons] at hnd
  refine ⟨fun b => match tag b with | .lst j => if j = i then .cur else .lst j | t => t,
    fun j => if j = i then [] else own j, a :: as', so, ?_⟩
  have hco : co = [] := by
    cases g.chn
    rfl
  refine ⟨fun j => ?_, fun j => ?_, fun j b hb => ?_, ?_, ?_, fun b hb => ?_, ?_, g.snd, fun b hb => ?_, g.lo, g.hi, g.ch, fun b hb => ?_⟩
  · by_cases hj : j = i
    · simp only [hj, if_true]
      exact Or.inl ⟨rfl, rfl, rfl⟩
    · simp only [if_neg hj]
      refine (g.opn j).congr (fun b hb => ?_)
      have h1 := (g.tg j b hb).1
      have : b ≠ a := by
        rintro rfl
        rw [hta] at h1
        exact hj (Tag.lst.inj h1).symm
      exact upd_ne this
  · split
    · exact List.nodup_nil
    · exact g.nd _
  · by_cases hj : j = i
    · rw [if_pos hj] at hb
      exact absurd hb (List.not_mem_nil)
    · rw [if_neg hj] at hb
      obtain ⟨h1, h2⟩ := g.tg j b hb
      refine ⟨?_, h2⟩
      rw [h1]
      simp only [if_neg hj]
  · rw [hB]
    refine .cons ha hc ?_ (hh.congr ?_) ?_
    · rw [upd_self]
      exact hpa
    · rw [upd_self]
    · rw [upd_self]
      refine hch.congr (fun b hb => ?_)
      have : b ≠ a := by
        rintro rfl
        exact hnd.1 hb
      exact upd_ne this
  · rw [List.nodup_cons]
    exact hnd
  · rw [← hown] at hb
    obtain ⟨h1, h2⟩ := g.tg i b hb
    refine ⟨?_, h2⟩
    rw [h1]
    simp only [if_true]
  · refine g.stk.congr (fun b hb => ?_)
    have h1 := (g.stg b hb).1
    have : b ≠ a := by
      rintro rfl
      rw [hta] at h1
      cases h1
    exact upd_ne this
  · obtain ⟨h1, h2⟩ := g.stg b hb
    refine ⟨?_, h2⟩
    rw [h1]
  · rcases g.all b hb with h | h | ⟨j, h⟩
    · exact Or.inl h
    · rw [hco] at h
      exact absurd h (List.not_mem_nil)
    · by_cases hj : j = i
      · rw [hj, hown] at h
        exact Or.inr (Or.inl h)
      · exact Or.inr (Or.inr ⟨j, by rw [if_neg hj]; exact h⟩)

theorem Inv.free {s : Pool} {P : ℕ → ℕ} {B : ℕ → Buckets} {a : ℕ} {c : List SievingPrime} {cl : Buckets}
    (h : Inv al T s P B a (c :: cl)) :
    s.Has a ∧ ∃ s', freeBucket s a = .ok s' ∧ s'.chunks = s.chunks ∧ Inv al T s' P B (s.mem a).next cl := by
  obtain ⟨tag, own, co, so, g⟩ := h
  obtain ⟨as', hco, ha, hc, hend, hh, hch⟩ : ∃ as', co = a :: as' ∧ a ≠ 0 ∧ 1 ≤ c.length ∧
      (s.mem a).end_ = a + 16 + 8 * c.length ∧ Holds s.mem a c ∧ Chain s.mem (s.mem a).next cl as' := by
    cases g.chn with
    | cons h1 h2 h3 h4 h5 => exact ⟨_, rfl, h1, h2, h3, h4, h5⟩
  obtain ⟨hta, hHas⟩ := g.ctg a (by rw [hco]; exact List.mem_cons_self ..)
  have hnd := g.cnd
  rw [hco, List.nodup_cons] at hnd
  refine ⟨hHas, { upd (upd s a { s.mem a with end_ := a + 16 }) a { s.mem a with end_ := a + 16, next := s.stock } with stock := a },
    ?_, rfl, ?_⟩
  · unfold freeBucket reset begin_
    rw [setEnd_ok hHas, ok_bind, setNext_ok (has_upd hHas), ok_bind, pure_eq_ok, upd_self]
    rfl
  classical
  refine ⟨fun b => if b = a then .stock else tag b, own, as', a :: so, ?_⟩
  refine ⟨fun j => ?_, g.nd, fun j b hb => ?_, ?_, hnd.2, fun b hb => ?_, ?_, ?_, fun b hb => ?_, g.lo, g.hi, g.ch, fun b hb => ?_⟩
  · refine (g.opn j).congr (fun b hb => ?_)
    have h1 := (g.tg j b hb).1
    have : b ≠ a := by
      rintro rfl
      rw [hta] at h1
      cases h1
    exact (upd_ne this).trans (upd_ne this)
  · obtain ⟨h1, h2⟩ := g.tg j b hb
    have : b ≠ a := by
      rintro rfl
      rw [hta] at h1
      cases h1
    exact ⟨by rw [if_neg this]; exact h1, h2⟩
  · refine hch.congr (fun b hb => ?_)
    have : b ≠ a := by
      rintro rfl
      exact hnd.1 hb
    exact (upd_ne this).trans (upd_ne this)
  · obtain ⟨h1, h2⟩ := g.ctg b (by rw [hco]; exact List.mem_cons_of_mem _ hb)
    have : b ≠ a := by
      rintro rfl
      exact hnd.1 hb
    exact ⟨by rw [if_neg this]; exact h1, h2⟩
  · refine .cons ha ?_
    dsimp only
    rw [upd_self]
    refine g.stk.congr (fun b hb => ?_)
    have h1 := (g.stg b hb).1
    have : b ≠ a := by
      rintro rfl
      rw [hta] at h1
      cases h1
    exact (upd_ne this).trans (upd_ne this)
  · rw [List.nodup_cons]
    refine ⟨fun hm => ?_, g.snd⟩
    have h1 := (g.stg a hm).1
    rw [hta] at h1
    cases h1
  · rcases List.mem_cons.1 hb with rfl | hb
    · exact ⟨if_pos rfl, hHas⟩
    · obtain ⟨h1, h2⟩ := g.stg b hb
      refine ⟨?_, h2⟩
      split
      · rfl
      · exact h1
  · rcases g.all b hb with h | h | h
    · exact Or.inl (List.mem_cons_of_mem _ h)
    · rw [hco] at h
      rcases List.mem_cons.1 h with rfl | h
      · exact Or.inl (List.mem_cons_self ..)
      · exact Or.inr (Or.inl h)
    · exact Or.inr (Or.inr h)

/-! ## Allocation -/

theorem stk_range {mem : ℕ → Bkt} {m k : ℕ} : ∀ j, m ≠ 0 → (∀ i, j ≤ i → i < j + k → (mem (m + 8192 * i)).next = m + 8192 * (i + 1)) →
    (mem (m + 8192 * (j + k))).next = 0 → Stk mem (m + 8192 * j) ((List.range' j (k + 1)).map (fun i => m + 8192 * i)) := by
  induction k with
  | zero =>
    intro j hm _ h0
    refine .cons (by omega) ?_
    rw [Nat.add_zero] at h0
    rw [h0]
    exact .nil
  | succ k ih =>
    intro j hm h1 h0
    refine .cons (by omega) ?_
    rw [h1 j (le_refl _) (by omega)]
    exact ih (j + 1) hm (fun i hi hi' => h1 i (by omega) (by omega)) (by rw [show j + 1 + k = j + (k + 1) by ring]; exact h0)

theorem initBuckets_ok {s : Pool} {m bytes n : ℕ} (hm : m % 8192 = 0) (hb : bytes / 8192 = n) (hn : 10 ≤ n)
    (hH : ∀ i < n, s.Has (m + 8192 * i)) :
    Ok (initBuckets s m bytes) (fun s' => s'.chunks = s.chunks ∧ s'.count = n ∧ s'.stock = m ∧
      (∀ b, (∀ i < n, b ≠ m + 8192 * i) → s'.mem b = s.mem b) ∧
      Stk s'.mem m ((List.range' 0 n).map (fun i => m + 8192 * i))) := by
  unfold initBuckets bucketBytes
  rw [hb]
  dsimp only
  rw [if_neg (by omega), if_neg (by omega)]
  refine Ok.bind (forUp_ok (fun i (t : Pool) => t.chunks = s.chunks ∧ t.count = n ∧
    (∀ b, (∀ j < n, b ≠ m + 8192 * j) → t.mem b = s.mem b) ∧
    (∀ j < i, (t.mem (m + 8192 * j)).next = m + 8192 * (j + 1))) ?_ (by omega) ?_) ?_
  · exact ⟨rfl, rfl, fun b _ => rfl, fun j hj => absurd hj (Nat.not_lt_zero _)⟩
  · rintro i t - hi ⟨h1, h2, h3, h4⟩
    have hh : t.Has (m + 8192 * i) := by
      unfold Pool.Has
      rw [h1]
      exact hH i (by omega)
    unfold reset
    rw [setEnd_ok hh, ok_bind, setNext_ok (has_upd hh)]
    refine Ok.ok ⟨h1, h2, fun b hb => ?_, fun j hj => ?_⟩
    · have := hb i (by omega)
      rw [upd_ne this, upd_ne this]
      exact h3 b hb
    · by_cases e : j = i
      · subst e
        rw [upd_self]
      · have : m + 8192 * j ≠ m + 8192 * i := by omega
        rw [upd_ne this, upd_ne this]
        exact h4 j (by omega)
  · rintro t ⟨h1, h2, h3, h4⟩
    have hh : t.Has (m + 8192 * (n - 1)) := by
      unfold Pool.Has
      rw [h1]
      exact hH (n - 1) (by omega)
    unfold reset
    rw [setEnd_ok hh, ok_bind, setNext_ok (has_upd hh), ok_bind]
    refine Ok.pure ⟨h1, h2, rfl, fun b hb => ?_, ?_⟩
    · have := hb (n - 1) (by omega)
      exact (upd_ne this).trans ((upd_ne this).trans (h3 b hb))
    · have hm0 : m ≠ 0 := by
        have := (hH 0 (by omega)).1
        omega
      dsimp only
      generalize hu : upd (upd t _ _) _ _ = u
      have e := stk_range (mem := u.mem) (m := m) (k := n - 1) 0 hm0 ?_ ?_
      · rw [show n - 1 + 1 = n by omega] at e
        exact e
      · intro i _ hi
        have : m + 8192 * i ≠ m + 8192 * (n - 1) := by omega
        rw [← hu, upd_ne this, upd_ne this]
        exact h4 i (by omega)
      · rw [Nat.zero_add, ← hu, upd_self]

/-! ## How much memory is in use -/

/-- The number of sieving primes in a list of buckets. -/
def items (bs : Buckets) : ℕ := (bs.map List.length).sum

/-- All buckets but the first one are full. -/
def Tight (bs : Buckets) : Prop := (∀ c ∈ bs, 1 ≤ c.length) ∧ ∀ c ∈ bs.tail, c.length = 1022

/-- `new` has refused a request for at most 16 MiB after the pool has got at most `T` bytes. -/
def Refused (T : ℕ) (al : Alloc) : Prop :=
  ∃ chunks n, Got al T chunks ∧ (chunks.map (·.2)).sum ≤ T ∧ n ≤ 2 ^ 24 ∧ al chunks n = none

/-- The memory that suffices for `K` sieving primes in `N` lists. -/
def cap (N K : ℕ) : ℕ := 16384 * (N + 1 + K / 1022)

theorem cap_mono {N K K' : ℕ} (h : K ≤ K') : cap N K ≤ cap N K' := by
  unfold cap
  have := Nat.div_le_div_right (c := 1022) h
  omega

/-- The invariant, with at most `K` sieving primes in `N` lists and the list `cl`. -/
structure InvK (al : Alloc) (T : ℕ) (N K : ℕ) (s : Pool) (P : ℕ → ℕ) (B : ℕ → Buckets) (ca : ℕ) (cl : Buckets) : Prop where
  inv : Inv al T s P B ca cl
  out : ∀ i, N ≤ i → B i = []
  tight : ∀ i, Tight (B i)
  tc : Tight cl
  cnt : ∑ i ∈ Finset.range N, items (B i) + items cl ≤ K

theorem Tight.length {bs : Buckets} (h : Tight bs) : 1022 * bs.length ≤ items bs + 1022 := by
  cases bs with
  | nil => simp
  | cons c cs =>
    have h2 : ∀ l : Buckets, (∀ c ∈ l, c.length = 1022) → items l = 1022 * l.length := by
      intro l
      induction l with
      | nil => intro _; rfl
      | cons d l ih =>
        intro hl
        have := ih (fun c hc => hl c (List.mem_cons_of_mem _ hc))
        have h3 := hl d (List.mem_cons_self ..)
        unfold items at this ⊢
        simp only [List.map_cons, List.sum_cons, List.length_cons]
        omega
    have h3 := h2 cs h.2
    unfold items at h3 ⊢
    simp only [List.map_cons, List.sum_cons, List.length_cons]
    omega

theorem tight_nil : Tight [] := ⟨fun _ h => absurd h List.not_mem_nil, fun _ h => absurd h List.not_mem_nil⟩

theorem Tight.tail {c : List SievingPrime} {cs : Buckets} (h : Tight (c :: cs)) : Tight cs :=
  ⟨fun d hd => h.1 d (List.mem_cons_of_mem _ hd), fun d hd => h.2 d (List.mem_of_mem_tail hd)⟩

theorem Tight.push {bs : Buckets} (h : Tight bs) (x : SievingPrime) : Tight (bs.push x) := by
  unfold Buckets.push
  cases bs with
  | nil => exact ⟨fun c hc => by simp at hc; simp [hc], fun c hc => absurd hc List.not_mem_nil⟩
  | cons c cs =>
    dsimp only
    by_cases hc : c.length = bucketSize
    · rw [if_pos hc]
      refine ⟨fun d hd => ?_, fun d hd => ?_⟩
      · rcases List.mem_cons.1 hd with rfl | hd
        · simp
        · exact h.1 d hd
      · rcases List.mem_cons.1 hd with rfl | hd
        · exact hc
        · exact h.2 d hd
    · rw [if_neg hc]
      refine ⟨fun d hd => ?_, h.2⟩
      rcases List.mem_cons.1 hd with rfl | hd
      · simp
      · exact h.1 d (List.mem_cons_of_mem _ hd)

theorem items_push {bs : Buckets} (x : SievingPrime) : items (bs.push x) = items bs + 1 := by
  unfold Buckets.push items
  cases bs with
  | nil => rfl
  | cons c cs =>
    dsimp only
    split <;> simp only [List.map_cons, List.sum_cons, List.length_append, List.length_singleton] <;> omega

theorem sum_update {N i : ℕ} (B : ℕ → Buckets) (l : Buckets) (hi : i < N) :
    ∑ j ∈ Finset.range N, items (if j = i then l else B j) + items (B i) = ∑ j ∈ Finset.range N, items (B j) + items l := by
  have hm : i ∈ Finset.range N := Finset.mem_range.2 hi
  rw [← Finset.add_sum_erase _ _ hm, ← Finset.add_sum_erase (Finset.range N) (fun j => items (B j)) hm, if_pos rfl]
  have : ∑ j ∈ (Finset.range N).erase i, items (if j = i then l else B j) = ∑ j ∈ (Finset.range N).erase i, items (B j) :=
    Finset.sum_congr rfl (fun j hj => by rw [if_neg (Finset.ne_of_mem_erase hj)])
  omega

/-- The memory that a pool has got. -/
theorem Got.total {cs : List (ℕ × ℕ)} (h : Got al T cs) : (cs.map (·.2)).sum ≤ T + 2 ^ 24 := by
  cases h with
  | nil => simp
  | cons hg h0 h1 h2 h3 =>
    rw [List.map_cons, List.sum_cons]
    dsimp only
    omega

/-- The buckets of the chunks. -/
theorem Got.buckets {al : Alloc} (hal : al.Valid) {cs : List (ℕ × ℕ)} (h : Got al T cs) : ∃ l : List ℕ, l.Nodup ∧
    (∀ b ∈ l, b ≠ 0 ∧ b % 8192 = 0 ∧ ∃ c ∈ cs, c.1 ≤ b ∧ b + 8192 ≤ c.1 + c.2) ∧ (cs.map (·.2)).sum ≤ 16384 * l.length := by
  induction h with
  | nil => exact ⟨[], List.nodup_nil, fun b hb => absurd hb List.not_mem_nil, by simp⟩
  | cons hg h0 h1 h2 h3 ih =>
    rename_i cs a n
    obtain ⟨l, l1, l2, l3⟩ := ih
    obtain ⟨v1, v2, v3⟩ := hal _ _ _ h3
    obtain ⟨d, hd⟩ : ∃ d, d = (8192 - a % 8192) % 8192 := ⟨_, rfl⟩
    obtain ⟨k, hk⟩ : ∃ k, (n - d) / 8192 = k := ⟨_, rfl⟩
    refine ⟨(List.range k).map (fun i => a + d + 8192 * i) ++ l, ?_, fun b hb => ?_, ?_⟩
    · rw [List.nodup_append]
      refine ⟨List.Nodup.map (fun x y hxy => by omega) List.nodup_range, l1, fun b hb b' hb' e => ?_⟩
      subst e
      obtain ⟨i, hi, rfl⟩ := List.mem_map.1 hb
      rw [List.mem_range] at hi
      obtain ⟨-, -, c, hc, c1, c2⟩ := l2 _ hb'
      have := v3 c hc
      omega
    · rcases List.mem_append.1 hb with hb | hb
      · obtain ⟨i, hi, rfl⟩ := List.mem_map.1 hb
        rw [List.mem_range] at hi
        exact ⟨by omega, by omega, (a, n), List.mem_cons_self .., by dsimp only; omega, by dsimp only; omega⟩
      · obtain ⟨b1, b2, c, hc, hc'⟩ := l2 b hb
        exact ⟨b1, b2, c, List.mem_cons_of_mem _ hc, hc'⟩
    · simp only [List.map_cons, List.sum_cons, List.length_append, List.length_map, List.length_range]
      omega

theorem Chain.length {mem : ℕ → Bkt} {a : ℕ} {bs : Buckets} {as : List ℕ} (h : Chain mem a bs as) : bs.length = as.length := by
  induction h with
  | nil => rfl
  | cons _ _ _ _ _ ih => simp [ih]

theorem Open.length {mem : ℕ → Bkt} {a : ℕ} {bs : Buckets} {as : List ℕ} (h : Open mem a bs as) : bs.length = as.length := by
  rcases h with ⟨-, rfl, rfl⟩ | ⟨a, c, cs, as', rfl, rfl, -, -, -, -, h⟩
  · rfl
  · simp [h.length]

/-- When no bucket is empty, the pool has got no more memory than the sieving primes need. -/
theorem InvK.total {al : Alloc} (hal : al.Valid) {N K : ℕ} {s : Pool} {P : ℕ → ℕ} {B : ℕ → Buckets} {ca : ℕ} {cl : Buckets}
    (h : InvK al T N K s P B ca cl) (h0 : s.stock = 0) : (s.chunks.map (·.2)).sum ≤ cap N K := by
  obtain ⟨tag, own, co, so, g⟩ := h.inv
  obtain ⟨l, l1, l2, l3⟩ := g.ch.2.buckets hal
  have hso : so = [] := by
    have hst := g.stk
    rw [h0] at hst
    cases hst with
    | nil => rfl
    | cons h' _ => exact absurd rfl h'
  have hsub : l ⊆ co ++ (List.range N).flatMap own := by
    intro b hb
    obtain ⟨b1, b2, b3⟩ := l2 b hb
    rcases g.all b ⟨b1, b2, b3⟩ with h1 | h1 | ⟨i, h1⟩
    · rw [hso] at h1
      exact absurd h1 List.not_mem_nil
    · exact List.mem_append_left _ h1
    · refine List.mem_append_right _ (List.mem_flatMap.2 ⟨i, List.mem_range.2 ?_, h1⟩)
      by_contra hi
      have := (g.opn i).length
      rw [h.out i (by omega)] at this
      rw [List.eq_nil_of_length_eq_zero this.symm] at h1
      exact absurd h1 List.not_mem_nil
  have hlen := (List.subperm_of_subset l1 hsub).length_le
  rw [List.length_append, List.length_flatMap, ← g.chn.length] at hlen
  have hs : ∀ N, 1022 * ((List.range N).map (fun i => (own i).length)).sum ≤ ∑ i ∈ Finset.range N, items (B i) + 1022 * N := by
    intro N
    induction N with
    | zero => simp
    | succ N ih =>
      rw [List.range_succ, List.map_append, List.sum_append, Finset.sum_range_succ, List.map_singleton, List.sum_singleton,
        ← (g.opn N).length]
      have := (h.tight N).length
      omega
  have h1 := hs N
  have h2 := h.tc.length
  have h3 := h.cnt
  unfold cap
  omega

theorem allocate_ok {al : Alloc} (hal : al.Valid) {N K : ℕ} {s : Pool} {P : ℕ → ℕ} {B : ℕ → Buckets} {ca : ℕ} {cl : Buckets}
    (hT : cap N K ≤ T) (hk : InvK al T N K s P B ca cl) (h0 : s.stock = 0) : (allocateBuckets al s = .error badAlloc ∧ Refused T al) ∨
    ∃ s', allocateBuckets al s = .ok s' ∧ Inv al T s' P B ca cl ∧ s'.stock ≠ 0 := by
  have htot := (hk.total hal h0).trans hT
  obtain ⟨tag, own, co, so, g⟩ := hk.inv
  unfold allocateBuckets
  dsimp only
  generalize hbytes : s.count * bucketBytes = bytes
  have hlo := g.lo
  have hhi := g.hi
  unfold bucketBytes at hbytes
  cases ha : al s.chunks bytes with
  | none => exact Or.inl ⟨rfl, s.chunks, bytes, g.ch.2, htot, by omega, ha⟩
  | some a =>
    right
    obtain ⟨h1, h2, h3⟩ := hal _ _ _ ha
    dsimp only
    generalize hd : (bucketBytes - a % bucketBytes) % bucketBytes = d
    unfold bucketBytes at hd ⊢
    rw [if_neg (by omega)]
    obtain ⟨n, hn⟩ : ∃ n, (bytes - d) / 8192 = n := ⟨_, rfl⟩
    have hn1 : s.count - 1 ≤ n := by omega
    have hn2 : n ≤ s.count := by omega
    obtain ⟨t, e, e1, e2, e3, e4, e5⟩ := initBuckets_ok (s := { s with chunks := (a, bytes) :: s.chunks }) (m := a + d)
      (bytes := bytes - d) (n := n) (by omega) hn (by omega) (fun i hi => by
        refine ⟨by omega, by unfold bucketBytes; omega, (a, bytes), List.mem_cons_self .., ?_, ?_⟩
        · dsimp only
          omega
        · unfold bucketBytes
          dsimp only
          omega)
    rw [e, ok_bind]
    refine ⟨_, rfl, ?_, ?_⟩
    rotate_left
    · show t.stock ≠ 0
      omega
    have out : ∀ b, s.Has b → ¬ (a ≤ b ∧ b < a + bytes) := by
      rintro b ⟨-, -, c, hc, hc1, hc2⟩ hb
      unfold bucketBytes at hc2
      have := h3 c hc
      omega
    have keep : ∀ b, s.Has b → t.mem b = s.mem b := by
      intro b hb
      refine e4 b (fun i hi hbi => out b hb ?_)
      omega
    have has : ∀ b, s.Has b → (increaseAllocCount t).Has b := by
      rintro b ⟨b1, b2, c, hc, hc1, hc2⟩
      refine ⟨b1, b2, c, ?_, hc1, hc2⟩
      show c ∈ t.chunks
      rw [e1]
      exact List.mem_cons_of_mem _ hc
    refine ⟨fun b => if a ≤ b ∧ b < a + bytes then .stock else tag b, own, co,
      (List.range' 0 n).map (fun i => a + d + 8192 * i), ?_⟩
    refine ⟨fun j => ?_, g.nd, fun j b hb => ?_, ?_, g.cnd, fun b hb => ?_, ?_, ?_, fun b hb => ?_, ?_, ?_, ?_, ?_⟩
    · exact (g.opn j).congr (fun b hb => keep b (g.tg j b hb).2)
    · obtain ⟨q1, q2⟩ := g.tg j b hb
      exact ⟨by rw [if_neg (out b q2)]; exact q1, has b q2⟩
    · exact g.chn.congr (fun b hb => keep b (g.ctg b hb).2)
    · obtain ⟨q1, q2⟩ := g.ctg b hb
      exact ⟨by rw [if_neg (out b q2)]; exact q1, has b q2⟩
    · show Stk t.mem t.stock _
      rw [e3]
      exact e5
    · refine List.Nodup.map (fun x y hxy => ?_) (List.nodup_range' (step := 1))
      omega
    · obtain ⟨i, hi, rfl⟩ := List.mem_map.1 hb
      rw [List.mem_range'_1] at hi
      refine ⟨if_pos (by omega), by omega, by unfold bucketBytes; omega, (a, bytes), ?_, ?_, ?_⟩
      · show _ ∈ t.chunks
        rw [e1]
        exact List.mem_cons_self ..
      · dsimp only
        omega
      · unfold bucketBytes
        dsimp only
        omega
    · show 64 ≤ min (t.count + t.count / 8) ((1 <<< 20) * 16 / bucketBytes)
      rw [e2, show (1 <<< 20) * 16 / bucketBytes = 2048 by rfl]
      omega
    · show min (t.count + t.count / 8) ((1 <<< 20) * 16 / bucketBytes) ≤ 2048
      rw [show (1 <<< 20) * 16 / bucketBytes = 2048 by rfl]
      omega
    · refine ⟨fun c hc => ?_, ?_⟩
      · have hc : c ∈ t.chunks := hc
        rw [e1] at hc
        rcases List.mem_cons.1 hc with rfl | hc
        · exact ⟨h2, by dsimp only; omega⟩
        · exact g.ch.1 c hc
      · show Got al T t.chunks
        rw [e1]
        exact .cons g.ch.2 htot (by omega) (by omega) ha
    · rintro b ⟨b1, b2, c, hc, hc1, hc2⟩
      have hc : c ∈ t.chunks := hc
      rw [e1] at hc
      rcases List.mem_cons.1 hc with rfl | hc
      · left
        unfold bucketBytes at b2 hc2
        dsimp only at hc1 hc2
        refine List.mem_map.2 ⟨(b - (a + d)) / 8192, ?_, ?_⟩
        · rw [List.mem_range'_1]
          omega
        · omega
      · rcases g.all b ⟨b1, b2, c, hc, hc1, hc2⟩ with h | h
        · have hst := g.stk
          rw [h0] at hst
          cases hst with
          | nil => exact absurd h (List.not_mem_nil)
          | cons h' _ => exact absurd rfl h'
        · exact Or.inr h

/-! ## Storing a sieving prime -/

theorem Ghost.add {s u : Pool} {P : ℕ → ℕ} {B : ℕ → Buckets} {ca : ℕ} {cl : Buckets} {tag : ℕ → Tag} {own : ℕ → List ℕ}
    {co so : List ℕ} {b : ℕ} (g : Ghost al T s P B ca cl tag own co (b :: so)) (i : ℕ) (x : SievingPrime)
    (hc : u.chunks = s.chunks) (hn : u.count = s.count) (hs : u.stock = (s.mem b).next)
    (hch : Chain u.mem (u.mem b).next (B i) (own i)) (hx : (u.mem b).primes 0 = x)
    (hne : ∀ y, y ≠ b → y ∉ own i → u.mem y = s.mem y) :
    Inv al T u (fun j => if j = i then b + 16 + 8 * 1 else P j) (fun j => if j = i then [x] :: B i else B j) ca cl := by
  obtain ⟨htb, hHb⟩ := g.stg b (List.mem_cons_self ..)
  have hnd := g.snd
  rw [List.nodup_cons] at hnd
  have hb0 : b ∉ own i := by
    intro hm
    have h1 := (g.tg i b hm).1
    rw [htb] at h1
    cases h1
  have has : ∀ y, s.Has y → u.Has y := by
    intro y hy
    unfold Pool.Has at hy ⊢
    rw [hc]
    exact hy
  have own_tag : ∀ y t, tag y = t → t ≠ .lst i → y ∉ own i := by
    intro y t h1 h2 hm
    rw [(g.tg i y hm).1] at h1
    exact h2 h1.symm
  refine ⟨fun y => if y = b then .lst i else tag y, fun j => if j = i then b :: own i else own j, co, so, ?_⟩
  refine ⟨fun j => ?_, fun j => ?_, fun j y hy => ?_, ?_, g.cnd, fun y hy => ?_, ?_, hnd.2, fun y hy => ?_,
    by rw [hn]; exact g.lo, by rw [hn]; exact g.hi, by rw [hc]; exact g.ch, fun y hy => ?_⟩
  · by_cases hj : j = i
    · simp only [if_pos hj]
      refine Or.inr ⟨b, [x], B i, own i, rfl, rfl, has_ne hHb, rfl, le_refl _, ⟨by simp, fun k hk => ?_⟩, hch⟩
      have : k = 0 := by simpa using hk
      subst this
      exact hx
    · simp only [if_neg hj]
      refine (g.opn j).congr (fun y hy => hne y ?_ ?_)
      · rintro rfl
        have h1 := (g.tg j y hy).1
        rw [htb] at h1
        cases h1
      · refine own_tag y _ (g.tg j y hy).1 ?_
        rintro h1
        exact hj (Tag.lst.inj h1)
  · split
    · rw [List.nodup_cons]
      exact ⟨hb0, g.nd i⟩
    · exact g.nd j
  · by_cases hj : j = i
    · rw [if_pos hj] at hy
      rcases List.mem_cons.1 hy with rfl | hy
      · exact ⟨by rw [if_pos rfl, hj], has _ hHb⟩
      · obtain ⟨h1, h2⟩ := g.tg i y hy
        refine ⟨?_, has _ h2⟩
        have : y ≠ b := by
          intro e
          rw [e] at hy
          exact hb0 hy
        rw [if_neg this, h1, hj]
    · rw [if_neg hj] at hy
      obtain ⟨h1, h2⟩ := g.tg j y hy
      refine ⟨?_, has _ h2⟩
      rw [if_neg ?_, h1]
      rintro rfl
      rw [htb] at h1
      cases h1
  · refine g.chn.congr (fun y hy => hne y ?_ ?_)
    · rintro rfl
      have h1 := (g.ctg y hy).1
      rw [htb] at h1
      cases h1
    · exact own_tag y _ (g.ctg y hy).1 (by simp)
  · obtain ⟨h1, h2⟩ := g.ctg y hy
    refine ⟨?_, has _ h2⟩
    rw [if_neg ?_, h1]
    rintro rfl
    rw [htb] at h1
    cases h1
  · rw [hs]
    have hst : Stk s.mem (s.mem b).next so := by
      have := g.stk
      generalize s.stock = q at this
      cases this with
      | cons _ h => exact h
    refine hst.congr (fun y hy => hne y ?_ ?_)
    · rintro rfl
      exact hnd.1 hy
    · exact own_tag y _ (g.stg y (List.mem_cons_of_mem _ hy)).1 (by simp)
  · obtain ⟨h1, h2⟩ := g.stg y (List.mem_cons_of_mem _ hy)
    refine ⟨?_, has _ h2⟩
    rw [if_neg ?_, h1]
    rintro rfl
    exact hnd.1 hy
  · have hy : s.Has y := by
      unfold Pool.Has at hy ⊢
      rw [hc] at hy
      exact hy
    rcases g.all y hy with h | h | ⟨j, h⟩
    · rcases List.mem_cons.1 h with rfl | h
      · exact Or.inr (Or.inr ⟨i, by rw [if_pos rfl]; exact List.mem_cons_self ..⟩)
      · exact Or.inl h
    · exact Or.inr (Or.inl h)
    · refine Or.inr (Or.inr ⟨j, ?_⟩)
      by_cases hj : j = i
      · rw [if_pos hj, ← hj]
        exact List.mem_cons_of_mem _ h
      · rw [if_neg hj]
        exact h

theorem Inv.put {s : Pool} {P : ℕ → ℕ} {B : ℕ → Buckets} {ca : ℕ} {cl : Buckets} (h : Inv al T s P B ca cl) (i : ℕ)
    (hf : isFull (P i) = false) (x : SievingPrime) :
    ∃ u, wrS s (P i) x = .ok u ∧
      Inv al T u (fun j => if j = i then incr (P i) else P j) (fun j => if j = i then (B i).push x else B j) ca cl := by
  obtain ⟨tag, own, co, so, g⟩ := h
  rcases g.opn i with ⟨h0, -⟩ | ⟨a, c, cs, as', hB, hown, ha, hpa, hc, hh, hch⟩
  · rw [h0] at hf
    exact absurd hf (by decide)
  obtain ⟨hta, hHas⟩ := g.tg i a (by rw [hown]; exact List.mem_cons_self ..)
  have hlen := hh.1
  have hk : c.length < 1022 := by
    rw [hpa, isFull_iff (has_mod hHas) hlen, decide_eq_false_iff_not] at hf
    omega
  have hnd := g.nd i
  rw [hown, List.nodup_cons] at hnd
  refine ⟨_, by rw [hpa]; exact wrS_ok hHas hk, ?_⟩
  generalize hu : upd s a _ = u
  have hne : ∀ y, y ≠ a → u.mem y = s.mem y := fun y hy => by rw [← hu]; exact upd_ne hy
  have hchunks : u.chunks = s.chunks := by rw [← hu]; rfl
  have hcount : u.count = s.count := by rw [← hu]; rfl
  have hstock : u.stock = s.stock := by rw [← hu]; rfl
  have hua : u.mem a = { s.mem a with primes := fun j => if j = c.length then x else (s.mem a).primes j } := by
    rw [← hu]
    exact upd_self
  have has : ∀ y, s.Has y → u.Has y := by
    intro y hy
    unfold Pool.Has at hy ⊢
    rw [hchunks]
    exact hy
  refine ⟨tag, own, co, so, ⟨fun j => ?_, g.nd, fun j y hy => ⟨(g.tg j y hy).1, has _ (g.tg j y hy).2⟩, ?_, g.cnd,
    fun y hy => ⟨(g.ctg y hy).1, has _ (g.ctg y hy).2⟩, ?_, g.snd, fun y hy => ⟨(g.stg y hy).1, has _ (g.stg y hy).2⟩,
    by rw [hcount]; exact g.lo, by rw [hcount]; exact g.hi, by rw [hchunks]; exact g.ch, fun y hy => g.all y ?_⟩⟩
  · by_cases hj : j = i
    · subst hj
      simp only [if_true]
      rw [hB, hpa, incr_ok (has_lt hHas g.ch.1) hk]
      unfold Buckets.push bucketSize
      dsimp only
      rw [if_neg (by omega)]
      refine Or.inr ⟨a, c ++ [x], cs, as', rfl, hown, ha, by simp, by simp, ⟨by simp; omega, fun k hk' => ?_⟩, ?_⟩
      · rw [hua]
        dsimp only
        rw [List.length_append, List.length_singleton] at hk'
        by_cases hkc : k = c.length
        · rw [if_pos hkc]
          simp [hkc]
        · rw [if_neg hkc, List.getElem_append_left (by omega)]
          exact hh.2 k (by omega)
      · rw [hua]
        refine hch.congr (fun y hy => hne y ?_)
        rintro rfl
        exact hnd.1 hy
    · simp only [if_neg hj]
      refine (g.opn j).congr (fun y hy => hne y ?_)
      rintro rfl
      have h1 := (g.tg j y hy).1
      rw [hta] at h1
      exact hj (Tag.lst.inj h1).symm
  · refine g.chn.congr (fun y hy => hne y ?_)
    rintro rfl
    have h1 := (g.ctg y hy).1
    rw [hta] at h1
    cases h1
  · rw [hstock]
    refine g.stk.congr (fun y hy => hne y ?_)
    rintro rfl
    have h1 := (g.stg y hy).1
    rw [hta] at h1
    cases h1
  · unfold Pool.Has at hy ⊢
    rw [hchunks] at hy
    exact hy

theorem InvK.addPut {al : Alloc} (hal : al.Valid) {N K : ℕ} (hT : cap N K ≤ T) {s : Pool} {P : ℕ → ℕ} {B : ℕ → Buckets} {ca : ℕ} {cl : Buckets}
    (h : InvK al T N K s P B ca cl) (i : ℕ) (hf : isFull (P i) = true) (x : SievingPrime) :
    (addBucket al s (P i) = .error badAlloc ∧ Refused T al) ∨ ∃ s1 p1 u, addBucket al s (P i) = .ok (s1, p1) ∧ wrS s1 p1 x = .ok u ∧
      Inv al T u (fun j => if j = i then incr p1 else P j) (fun j => if j = i then (B i).push x else B j) ca cl := by
  obtain ⟨h1, h2⟩ | ⟨t, h1, h2, h3⟩ : ((if s.stock = 0 then allocateBuckets al s else pure s : M Pool) = .error badAlloc ∧ Refused T al) ∨
      ∃ t, (if s.stock = 0 then allocateBuckets al s else pure s : M Pool) = .ok t ∧ Inv al T t P B ca cl ∧ t.stock ≠ 0 := by
    by_cases h0 : s.stock = 0
    · rw [if_pos h0]
      rcases allocate_ok hal hT h h0 with e | ⟨s', e⟩
      · exact Or.inl e
      · exact Or.inr ⟨s', e⟩
    · rw [if_neg h0]
      exact Or.inr ⟨s, rfl, h.inv, h0⟩
  · left
    refine ⟨?_, h2⟩
    unfold addBucket
    rw [h1]
    rfl
  right
  obtain ⟨tag, own, co, so, g⟩ := h2
  obtain ⟨so', rfl⟩ : ∃ so', so = t.stock :: so' := by
    have := g.stk
    cases so with
    | nil =>
      generalize t.stock = q at this h3
      cases this
      exact absurd rfl h3
    | cons b so' =>
      refine ⟨so', ?_⟩
      generalize t.stock = q at this
      cases this
      rfl
  obtain ⟨htb, hHb⟩ := g.stg _ (List.mem_cons_self ..)
  have hlt := has_lt hHb g.ch.1
  have hinc : incr (t.stock + 16) = t.stock + 16 + 8 * 1 := incr_ok (k := 0) hlt (by omega)
  have hHb' : ({ t with stock := (t.mem t.stock).next } : Pool).Has t.stock := hHb
  unfold addBucket
  rw [h1, ok_bind]
  dsimp only
  rw [rdB_ok hHb, ok_bind]
  rw [setNext_ok hHb', ok_bind]
  dsimp only
  rcases g.opn i with ⟨h0, hB, hown⟩ | ⟨a, c, cs, as', hB, hown, ha, hpa, hc, hh, hch⟩
  · rw [if_neg (by rw [h0]; simp), pure_eq_ok, ok_bind, pure_eq_ok]
    refine ⟨_, _, _, rfl, wrS_ok (k := 0) (a := t.stock) (has_upd hHb') (by omega), ?_⟩
    rw [show incr (begin_ t.stock) = _ from hinc]
    generalize hu : upd (upd _ _ _) _ _ = u
    have e := g.add (u := u) i x (by rw [← hu]; rfl) (by rw [← hu]; rfl) (by rw [← hu]; rfl) ?_ ?_ ?_
    · rw [hB] at e ⊢
      exact e
    · rw [← hu, upd_self]
      dsimp only
      rw [upd_self, hB, hown]
      exact .nil
    · rw [← hu, upd_self]
      simp
    · intro y hy _
      rw [← hu, upd_ne hy, upd_ne hy]
  · obtain ⟨hta, hHa⟩ := g.tg i a (by rw [hown]; exact List.mem_cons_self ..)
    have hlen := hh.1
    have hk : c.length = 1022 := by
      rw [hpa, isFull_iff (has_mod hHa) hlen, decide_eq_true_iff] at hf
      exact hf
    have hHa' : ({ t with stock := (t.mem t.stock).next } : Pool).Has a := hHa
    have hab : a ≠ t.stock := by
      intro e
      rw [← e, hta] at htb
      cases htb
    have hnd := g.nd i
    rw [hown, List.nodup_cons] at hnd
    have hbo : ∀ y ∈ own i, y ≠ t.stock := by
      rintro y hy rfl
      rw [(g.tg i _ hy).1] at htb
      cases htb
    rw [if_pos (by rw [hpa]; omega), hpa, get_ok (has_mod hHa) hlen, ok_bind, setEnd_ok (has_upd hHa'), ok_bind,
      setNext_ok (has_upd (has_upd hHb')), ok_bind, pure_eq_ok]
    refine ⟨_, _, _, rfl, wrS_ok (k := 0) (a := t.stock) (has_upd (has_upd (has_upd hHb'))) (by omega), ?_⟩
    rw [show incr (begin_ t.stock) = _ from hinc]
    generalize hu : upd (upd (upd _ _ _) _ _) _ _ = u
    have hua : u.mem a = { t.mem a with end_ := a + 16 + 8 * c.length } := by
      rw [← hu, upd_ne hab, upd_ne hab, upd_self, upd_ne hab]
    have hne : ∀ y, y ≠ t.stock → y ≠ a → u.mem y = t.mem y := by
      intro y h1 h2
      rw [← hu, upd_ne h1, upd_ne h1, upd_ne h2, upd_ne h1]
    have e := g.add (u := u) i x (by rw [← hu]; rfl) (by rw [← hu]; rfl) (by rw [← hu]; rfl) ?_ ?_ ?_
    · rw [hB] at e ⊢
      unfold Buckets.push bucketSize
      dsimp only
      rw [if_pos hk]
      exact e
    · have : (u.mem t.stock).next = a := by
        rw [← hu, upd_self]
        dsimp only
        rw [upd_self]
      rw [this, hB, hown]
      refine .cons ha hc (by rw [hua]) (hh.congr (by rw [hua])) ?_
      rw [hua]
      refine hch.congr (fun y hy => hne y (hbo y ?_) ?_)
      · rw [hown]
        exact List.mem_cons_of_mem _ hy
      · rintro rfl
        exact hnd.1 hy
    · rw [← hu, upd_self]
      simp
    · intro y hy hyo
      refine hne y hy ?_
      rintro rfl
      exact hyo (by rw [hown]; exact List.mem_cons_self ..)

theorem InvK.push {al : Alloc} {N K : ℕ} {s u : Pool} {P Q : ℕ → ℕ} {B : ℕ → Buckets} {ca : ℕ} {cl : Buckets}
    (h : InvK al T N K s P B ca cl) {i : ℕ} (hi : i < N) {x : SievingPrime}
    (hu : Inv al T u Q (fun j => if j = i then (B i).push x else B j) ca cl) :
    InvK al T N (K + 1) u Q (fun j => if j = i then (B i).push x else B j) ca cl := by
  refine ⟨hu, fun j hj => ?_, fun j => ?_, h.tc, ?_⟩
  · rw [if_neg (by omega)]
    exact h.out j hj
  · by_cases hj : j = i
    · rw [if_pos hj]
      exact (h.tight i).push x
    · rw [if_neg hj]
      exact h.tight j
  · have := sum_update B ((B i).push x) hi
    rw [items_push] at this
    have := h.cnt
    omega

theorem InvK.close {al : Alloc} {N K : ℕ} {s : Pool} {P : ℕ → ℕ} {B : ℕ → Buckets} (h : InvK al T N K s P B 0 []) (i : ℕ) (hi : i < N)
    (hp : P i ≠ 0) : ∃ b s', Mem.close s (P i) = .ok (b, s') ∧ s'.chunks = s.chunks ∧
      InvK al T N K s' (fun j => if j = i then 0 else P j) (fun j => if j = i then [] else B j) b (B i) := by
  obtain ⟨b, s', h1, h2, h3⟩ := h.inv.close i hp
  refine ⟨b, s', h1, h2, h3, fun j hj => ?_, fun j => ?_, h.tight i, ?_⟩
  · rw [if_neg (by omega)]
    exact h.out j hj
  · by_cases hj : j = i
    · rw [if_pos hj]
      exact tight_nil
    · rw [if_neg hj]
      exact h.tight j
  · have h4 := sum_update B [] hi
    have h5 := h.cnt
    have : items [] = 0 := rfl
    omega

theorem InvK.free {al : Alloc} {N K : ℕ} {s : Pool} {P : ℕ → ℕ} {B : ℕ → Buckets} {a : ℕ} {c : List SievingPrime} {cl : Buckets}
    (h : InvK al T N (K + c.length) s P B a (c :: cl)) :
    s.Has a ∧ ∃ s', freeBucket s a = .ok s' ∧ s'.chunks = s.chunks ∧ InvK al T N K s' P B (s.mem a).next cl := by
  obtain ⟨h1, s', h2, h3, h4⟩ := h.inv.free
  refine ⟨h1, s', h2, h3, h4, h.out, h.tight, h.tc.tail, ?_⟩
  have h5 := h.cnt
  have : items (c :: cl) = c.length + items cl := by
    unfold items
    simp
  omega

theorem InvK.perm {al : Alloc} {N K : ℕ} {s : Pool} {P P' : ℕ → ℕ} {B B' : ℕ → Buckets} {ca : ℕ} {cl : Buckets}
    (h : InvK al T N K s P B ca cl) (σ τ : ℕ → ℕ) (hσ : ∀ i, σ (τ i) = i) (hτ : ∀ i, τ (σ i) = i) (hP : ∀ i, P' i = P (σ i))
    (hB : ∀ i, B' i = B (σ i)) (hN : ∀ i, σ i < N ↔ i < N) : InvK al T N K s P' B' ca cl := by
  refine ⟨h.inv.perm σ τ hσ hτ hP hB, fun i hi => ?_, fun i => ?_, h.tc, ?_⟩
  · rw [hB]
    refine h.out _ ?_
    by_contra hc
    have := (hN i).1 (by omega)
    omega
  · rw [hB]
    exact h.tight _
  · have : ∑ i ∈ Finset.range N, items (B' i) = ∑ i ∈ Finset.range N, items (B i) := by
      refine Finset.sum_nbij' σ τ (fun i hi => ?_) (fun i hi => ?_) (fun i _ => hτ i) (fun i _ => hσ i) (fun i _ => by rw [hB])
      · rw [Finset.mem_range] at hi ⊢
        exact (hN i).2 hi
      · rw [Finset.mem_range] at hi ⊢
        rw [← hN, hσ]
        exact hi
    rw [this]
    exact h.cnt

theorem InvK.mono {al : Alloc} {N K K' : ℕ} {s : Pool} {P : ℕ → ℕ} {B : ℕ → Buckets} {ca : ℕ} {cl : Buckets}
    (h : InvK al T N K s P B ca cl) (hK : K ≤ K') : InvK al T N K' s P B ca cl := ⟨h.inv, h.out, h.tight, h.tc, h.cnt.trans hK⟩

/-! ## Simulation -/

/-- Both programs fail with the same error or succeed with related results, or the first one runs out of memory, for the reason `F`. -/
def Sim {α β : Type} (F : Prop) (m : M α) (m' : M β) (R : α → β → Prop) : Prop :=
  (m = .error badAlloc ∧ F) ∨ (∃ e, m = .error e ∧ m' = .error e) ∨ ∃ a b, m = .ok a ∧ m' = .ok b ∧ R a b

theorem Sim.pure {F : Prop} {α β : Type} {a : α} {b : β} {R : α → β → Prop} (h : R a b) : Sim F (pure a) (pure b) R :=
  Or.inr (Or.inr ⟨a, b, rfl, rfl, h⟩)

theorem Sim.mono {F : Prop} {α β : Type} {m : M α} {m' : M β} {R S : α → β → Prop} (h : Sim F m m' R) (hS : ∀ a b, R a b → S a b) :
    Sim F m m' S := by
  rcases h with h | h | ⟨a, b, h1, h2, h3⟩
  · exact Or.inl h
  · exact Or.inr (Or.inl h)
  · exact Or.inr (Or.inr ⟨a, b, h1, h2, hS a b h3⟩)

theorem Sim.bind {F : Prop} {α β α' β' : Type} {m : M α} {m' : M β} {R : α → β → Prop} {f : α → M α'} {g : β → M β'} {S : α' → β' → Prop}
    (h : Sim F m m' R) (hf : ∀ a b, R a b → Sim F (f a) (g b) S) : Sim F (m >>= f) (m' >>= g) S := by
  rcases h with h | ⟨e, h1, h2⟩ | ⟨a, b, h1, h2, h3⟩
  · left
    refine ⟨?_, h.2⟩
    rw [h.1]
    rfl
  · right; left
    exact ⟨e, by rw [h1]; rfl, by rw [h2]; rfl⟩
  · rw [h1, h2, ok_bind, ok_bind]
    exact hf a b h3

theorem Sim.bind_right {F : Prop} {α β β' : Type} {m : M α} {m' : M β} {R : α → β → Prop} {g : β → M β'} {S : α → β' → Prop}
    (h : Sim F m m' R) (hf : ∀ a b, R a b → Sim F (Pure.pure a : M α) (g b) S) : Sim F m (m' >>= g) S := by
  have := h.bind (f := Pure.pure) hf
  rwa [bind_pure] at this

theorem Sim.same {F : Prop} {α α' β' : Type} {m : M α} {f : α → M α'} {g : α → M β'} {S : α' → β' → Prop}
    (hf : ∀ a, Sim F (f a) (g a) S) : Sim F (m >>= f) (m >>= g) S := by
  cases m with
  | error e => exact Or.inr (Or.inl ⟨e, rfl, rfl⟩)
  | ok a => exact hf a

theorem Sim.forUp {F : Prop} {α β : Type} {R : ℕ → α → β → Prop} {hi : ℕ} {f : ℕ → α → M α} {g : ℕ → β → M β}
    (hf : ∀ i a b, i < hi → R i a b → Sim F (f i a) (g i b) (R (i + 1))) (n : ℕ) : ∀ lo a b, hi - lo = n → lo ≤ hi → R lo a b →
    Sim F (forUp lo hi a f) (forUp lo hi b g) (R hi) := by
  induction n with
  | zero =>
    intro lo a b hn hle h
    have : lo = hi := by omega
    subst this
    unfold PS.forUp
    rw [if_neg (by omega), if_neg (by omega)]
    exact Sim.pure h
  | succ n ih =>
    intro lo a b hn hle h
    unfold PS.forUp
    rw [if_pos (by omega), if_pos (by omega)]
    exact (hf lo a b (by omega) h).bind (fun a b h => ih (lo + 1) a b (by omega) (by omega) h)

/-- The two steps agree. -/
def StepR {α β γ δ : Type} (R : α → β → Prop) (S : γ → δ → Prop) : Step α γ → Step β δ → Prop
  | .next a, .next b => R a b
  | .done a, .done b => S a b
  | _, _ => False

theorem Sim.loop {F : Prop} {α β γ δ : Type} {R : α → β → Prop} {S : γ → δ → Prop} {f : α → M (Step α γ)} {g : β → M (Step β δ)}
    (hf : ∀ a b, R a b → Sim F (f a) (g b) (StepR R S)) (n : ℕ) : ∀ a b, R a b → Sim F (loop n a f) (loop n b g) S := by
  induction n with
  | zero =>
    intro a b _
    exact Or.inr (Or.inl ⟨_, rfl, rfl⟩)
  | succ n ih =>
    intro a b h
    unfold PS.loop
    refine (hf a b h).bind (fun a b h => ?_)
    cases a <;> cases b
    · exact ih _ _ h
    · exact h.elim
    · exact h.elim
    · exact Sim.pure h

/-! ## The programs -/

theorem length_le_of_disjoint {ch : List (ℕ × ℕ)} {l : List ℕ} (hl : l.Nodup)
    (h : ∀ b ∈ l, ∃ c ∈ ch, c.1 ≤ b ∧ b < c.1 + c.2) : l.length ≤ (ch.map (·.2)).sum := by
  have hs : l ⊆ ch.flatMap (fun c => List.range' c.1 c.2) := by
    intro b hb
    obtain ⟨c, hc, h1, h2⟩ := h b hb
    exact List.mem_flatMap.2 ⟨c, hc, by rw [List.mem_range'_1]; exact ⟨h1, h2⟩⟩
  have := (List.subperm_of_subset hl hs).length_le
  rw [List.length_flatMap] at this
  simpa using this

theorem Inv.length {s : Pool} {P : ℕ → ℕ} {B : ℕ → Buckets} {ca : ℕ} {cl : Buckets} (h : Inv al T s P B ca cl) :
    cl.length ≤ (s.chunks.map (·.2)).sum := by
  obtain ⟨tag, own, co, so, g⟩ := h
  rw [g.chn.length]
  refine length_le_of_disjoint g.cnd (fun b hb => ?_)
  obtain ⟨-, -, c, hc, h1, h2⟩ := (g.ctg b hb).2
  unfold bucketBytes at h2
  exact ⟨c, hc, h1, by omega⟩

/-- Two families of lists: `v` at even and `o` at odd indexes. -/
def mix {α : Type} [Inhabited α] (v : Vec α) (o : ℕ → α) (j : ℕ) : α := if j % 2 = 0 then v.get (j / 2) else o (j / 2)

variable {K : ℕ}

/-- The pointers `t.ptrs` stand for the lists `t'.1`, further pointers `oP` for lists `oB` and `ca` for the list `cl`. -/
structure Rel (al : Alloc) (T : ℕ) (K n : ℕ) (oP : ℕ → ℕ) (oB : ℕ → Buckets) (ca : ℕ) (cl : Buckets) (t : St) (t' : Vec Buckets × Vec Byte) : Prop where
  sieve : t.sieve = t'.2
  size : t.ptrs.size = t'.1.size
  cnt : t.ptrs.size = n
  inv : InvK al T (2 * n) K t.pool (mix t.ptrs oP) (mix t'.1 oB) ca cl

theorem Rel.mono {K' n : ℕ} {oP : ℕ → ℕ} {oB : ℕ → Buckets} {ca : ℕ} {cl : Buckets} {t : St} {t' : Vec Buckets × Vec Byte}
    (h : Rel al T K n oP oB ca cl t t') (hK : K ≤ K') : Rel al T K' n oP oB ca cl t t' := ⟨h.sieve, h.size, h.cnt, h.inv.mono hK⟩

theorem mix_set {α : Type} [Inhabited α] {v : Vec α} {o : ℕ → α} {i : ℕ} {x : α} (h : i < v.size) :
    mix (v.set i x) o = fun j => if j = 2 * i then x else mix v o j := by
  funext j
  unfold mix
  by_cases hj : j = 2 * i
  · rw [if_pos hj, if_pos (by omega), show j / 2 = i by omega, Vec.get_set_self _ _ _ h]
  · rw [if_neg hj]
    by_cases h2 : j % 2 = 0
    · rw [if_pos h2, if_pos h2, Vec.get_set_ne _ _ _ _ (by omega)]
    · rw [if_neg h2, if_neg h2]

theorem mix_even {α : Type} [Inhabited α] (v : Vec α) (o : ℕ → α) (i : ℕ) : mix v o (2 * i) = v.get i := by
  unfold mix
  rw [if_pos (by omega), show 2 * i / 2 = i by omega]

theorem push_sim {al : Alloc} (hal : al.Valid) {pool : Pool} {ptrs : Vec ℕ} {bs : Vec Buckets} {oP : ℕ → ℕ} {oB : ℕ → Buckets}
    {ca : ℕ} {cl : Buckets} {n : ℕ} (hsz : ptrs.size = bs.size) (hn : ptrs.size = n) (hT : cap (2 * n) K ≤ T)
    (h : InvK al T (2 * n) K pool (mix ptrs oP) (mix bs oB) ca cl) (i : ℕ) (x : SievingPrime) :
    Sim (Refused T al) (push al pool ptrs i x) (pushAt bs i x)
      (fun r b => r.2.size = b.size ∧ r.2.size = ptrs.size ∧ InvK al T (2 * n) (K + 1) r.1 (mix r.2 oP) (mix b oB) ca cl) := by
  unfold push pushAt
  by_cases hi : i < ptrs.size
  swap
  · right; left
    refine ⟨.oob, ?_, ?_⟩
    · unfold Vec.rd
      rw [if_neg hi]
      rfl
    · unfold Vec.rd
      rw [if_neg (by omega)]
      rfl
  rw [Vec.rd_ok hi, ok_bind, Vec.rd_ok (by omega), ok_bind, Vec.wr_ok (show i < bs.size by omega)]
  rw [← mix_even ptrs oP i, ← mix_even bs oB i]
  by_cases hf : isFull (mix ptrs oP (2 * i)) = true
  · rw [if_pos hf]
    rcases h.addPut hal hT (2 * i) hf x with e | ⟨s1, p1, u, e1, e2, e3⟩
    · left
      refine ⟨?_, e.2⟩
      rw [e.1]
      rfl
    · right; right
      rw [e1, ok_bind]
      dsimp only
      rw [e2, ok_bind, Vec.wr_ok hi, ok_bind]
      refine ⟨_, _, rfl, rfl, by simp [hsz], by simp, ?_⟩
      rw [mix_set hi, mix_set (show i < bs.size by omega)]
      exact h.push (by omega) e3
  · rw [if_neg hf]
    obtain ⟨u, e2, e3⟩ := h.inv.put (2 * i) (by simpa using hf) x
    right; right
    rw [pure_eq_ok, ok_bind]
    dsimp only
    rw [e2, ok_bind, Vec.wr_ok hi, ok_bind]
    refine ⟨_, _, rfl, rfl, by simp [hsz], by simp, ?_⟩
    rw [mix_set hi, mix_set (show i < bs.size by omega)]
    exact h.push (by omega) e3

theorem Inv.head {s : Pool} {P : ℕ → ℕ} {B : ℕ → Buckets} {a : ℕ} {c : List SievingPrime} {cl : Buckets}
    (h : Inv al T s P B a (c :: cl)) : s.Has a ∧ a + 8192 < 2 ^ 64 ∧ 1 ≤ c.length ∧ (s.mem a).end_ = a + 16 + 8 * c.length ∧ Holds s.mem a c := by
  obtain ⟨tag, own, co, so, g⟩ := h
  cases g.chn with
  | cons h1 h2 h3 h4 h5 =>
    have := (g.ctg a (List.mem_cons_self ..)).2
    exact ⟨this, has_lt this g.ch.1, h2, h3, h4⟩

theorem eachPrime_sim {F : Prop} {τ : Type} {a : ℕ} {c : List SievingPrime} {cl : Buckets} {R : ℕ → St → τ → Prop}
    {f : SievingPrime → St → M St} {g : τ → SievingPrime → M τ}
    (hR : ∀ j t t', R j t t' → ∃ P B, Inv al T t.pool P B a (c :: cl))
    (hf : ∀ j x t t', j < c.length → R j t t' → Sim F (f x t) (g t' x) (R (j + 1))) :
    ∀ t t', R 0 t t' → Sim F (eachPrime (begin_ a) (a + 16 + 8 * c.length) t f) (c.foldlM g t') (R c.length) := by
  have key : ∀ (rest done : List SievingPrime) n t t', c = done ++ rest → rest.length < n → R done.length t t' →
      Sim F (PS.loop n (a + 16 + 8 * done.length, t) (fun ((p, t) : ℕ × St) =>
        if p ≠ a + 16 + 8 * c.length then do
          let x ← rdS t.pool p
          let t ← f x t
          Pure.pure (Step.next (incr p, t))
        else Pure.pure (Step.done t))) (rest.foldlM g t') (R c.length) := by
    intro rest
    induction rest with
    | nil =>
      intro done n t t' hc hn h
      obtain ⟨n, rfl⟩ : ∃ k, n = k + 1 := ⟨n - 1, by omega⟩
      unfold PS.loop
      dsimp only
      rw [if_neg (by rw [hc]; simp), pure_eq_ok, ok_bind]
      rw [List.append_nil] at hc
      rw [← hc] at h
      exact Sim.pure h
    | cons x rest ih =>
      intro done n t t' hc hn h
      obtain ⟨n, rfl⟩ : ∃ k, n = k + 1 := ⟨n - 1, by omega⟩
      obtain ⟨P, B, hI⟩ := hR _ t t' h
      obtain ⟨h1, h2, h3, h4, h5⟩ := hI.head
      have hlen : c.length = done.length + (rest.length + 1) := by rw [hc]; simp
      have := h5.1
      have hx : (t.pool.mem a).primes done.length = x := by
        rw [h5.2 _ (by omega)]
        simp [hc]
      unfold PS.loop
      dsimp only
      rw [if_pos (by omega), rdS_ok h1 (by omega), ok_bind, List.foldlM_cons, hx, bind_assoc]
      refine (hf done.length x t t' (by omega) h).bind (fun u u' hu => ?_)
      rw [pure_eq_ok, ok_bind, incr_ok h2 (by omega)]
      have e := ih (done ++ [x]) n u u' (by rw [hc]; simp) (by simp at hn; omega)
        (by rw [List.length_append, List.length_singleton]; exact hu)
      rw [List.length_append, List.length_singleton] at e
      exact e
  intro t t' h
  unfold eachPrime begin_
  have hl : c.length < 1024 := by
    obtain ⟨P, B, hI⟩ := hR _ t t' h
    have := hI.head.2.2.2.2.1
    omega
  exact key c [] 1024 t t' rfl hl h

theorem eachBucket_sim {F : Prop} {k : ℕ} {oP : ℕ → ℕ} {oB : ℕ → Buckets} {f : ℕ → St → M St}
    {g : Vec Buckets × Vec Byte → List SievingPrime → M (Vec Buckets × Vec Byte)}
    (hf : ∀ a c cl t t', Rel al T K k oP oB a (c :: cl) t t' →
      Sim F (f a t) (g t' c) (Rel al T (K + c.length) k oP oB a (c :: cl))) {a : ℕ} {cl : Buckets}
    {t : St} {t' : Vec Buckets × Vec Byte} (h : Rel al T K k oP oB a cl t t') :
    Sim F (eachBucket a t f) (cl.foldlM g t') (Rel al T K k oP oB 0 []) := by
  unfold eachBucket
  have hl := h.inv.inv.length
  generalize hn : (t.pool.chunks.map (·.2)).sum + 1 = n
  have hl : cl.length < n := by omega
  clear hn
  induction cl generalizing a t t' n with
  | nil =>
    obtain ⟨n, rfl⟩ : ∃ k, n = k + 1 := ⟨n - 1, by omega⟩
    have ha : a = 0 := by
      obtain ⟨tag, own, co, so, g⟩ := h.inv.inv
      cases g.chn
      rfl
    subst ha
    unfold PS.loop
    dsimp only
    rw [if_neg (by simp), pure_eq_ok, ok_bind]
    exact Sim.pure h
  | cons c cl ih =>
    obtain ⟨n, rfl⟩ : ∃ k, n = k + 1 := ⟨n - 1, by omega⟩
    unfold PS.loop
    dsimp only
    rw [if_pos (has_ne h.inv.inv.head.1), List.foldlM_cons, bind_assoc]
    refine (hf a c cl t t' h).bind (fun u u' hu => ?_)
    obtain ⟨h1, s', h2, h3, h4⟩ := hu.inv.free
    rw [rdB_ok h1, ok_bind, h2, ok_bind, pure_eq_ok, ok_bind]
    dsimp only
    refine ih (t := { u with pool := s' }) ⟨hu.sieve, hu.size, hu.cnt, h4⟩ h4.inv.length n ?_
    simp at hl
    omega

/-! ## EratMedium -/

theorem mediumStore_sim {al : Alloc} (hal : al.Valid) {n : ℕ} {oP : ℕ → ℕ} {oB : ℕ → Buckets} {ca : ℕ} {cl : Buckets} {t : St}
    {t' : Vec Buckets × Vec Byte} (hT : cap (2 * n) K ≤ T) (h : Rel al T K n oP oB ca cl t t') (prime mi wi : ℕ) :
    Sim (Refused T al) (mediumStore al prime mi wi t) (pushAt t'.1 wi (.make (prime / 30) mi wi))
      (fun u b => Rel al T (K + 1) n oP oB ca cl u (b, t'.2)) := by
  unfold mediumStore
  rw [← bind_pure (pushAt t'.1 wi _)]
  refine (push_sim hal h.size h.cnt hT h.inv wi _).bind (fun r b hr => ?_)
  exact Sim.pure ⟨h.sieve, hr.1, hr.2.1.trans h.cnt, hr.2.2⟩

theorem mediumPrime_sim {al : Alloc} (hal : al.Valid) {n : ℕ} {oP : ℕ → ℕ} {oB : ℕ → Buckets} {ca : ℕ} {cl : Buckets} (r sieveEnd wi : ℕ)
    (x : SievingPrime) {t : St} {t' : Vec Buckets × Vec Byte} (hT : cap (2 * n) K ≤ T) (h : Rel al T K n oP oB ca cl t t') :
    Sim (Refused T al) (mediumPrime al r sieveEnd wi x t) (Psv.mediumPrime r sieveEnd wi x t') (Rel al T (K + 1) n oP oB ca cl) := by
  unfold mediumPrime Psv.mediumPrime
  rw [h.sieve]
  refine Sim.same (fun q => ?_)
  refine (push_sim hal h.size h.cnt hT h.inv q.2.1 _).bind (fun r b hr => ?_)
  exact Sim.pure ⟨rfl, hr.1, hr.2.1.trans h.cnt, hr.2.2⟩

theorem mediumBucket_sim {al : Alloc} (hal : al.Valid) {n : ℕ} {oP : ℕ → ℕ} {oB : ℕ → Buckets} (r sieveEnd a : ℕ) (c : List SievingPrime)
    (cl : Buckets) (t : St) (t' : Vec Buckets × Vec Byte) (hT : cap (2 * n) (K + 1022) ≤ T) (h : Rel al T K n oP oB a (c :: cl) t t') :
    Sim (Refused T al) (mediumBucket al r sieveEnd a t) (Psv.mediumBucket r sieveEnd c t') (Rel al T (K + c.length) n oP oB a (c :: cl)) := by
  obtain ⟨h1, h2, h3, h4, h5⟩ := h.inv.inv.head
  unfold mediumBucket Psv.mediumBucket
  rw [rdB_ok h1, ok_bind, show rdS t.pool (begin_ a) = _ from rdS_ok (k := 0) h1 (by omega), ok_bind, h4, h5.2 0 (by omega)]
  cases c with
  | nil => simp at h3
  | cons y c =>
    have hlen := h5.1
    exact eachPrime_sim (al := al) (cl := cl) (R := fun j => Rel al T (K + j) n oP oB a ((y :: c) :: cl)) (fun j t t' h => ⟨_, _, h.inv.inv⟩)
      (fun j x t t' hj h => mediumPrime_sim hal r sieveEnd _ x ((cap_mono (show K + j ≤ K + 1022 by omega)).trans hT) h) t t' h

theorem Inv.zero {s : Pool} {P : ℕ → ℕ} {B : ℕ → Buckets} {ca : ℕ} {cl : Buckets} (h : Inv al T s P B ca cl) (i : ℕ) :
    P i = 0 ↔ B i = [] := by
  obtain ⟨tag, own, co, so, g⟩ := h
  rcases g.opn i with ⟨h0, hB, -⟩ | ⟨a, c, cs, as', hB, -, ha, hp, -⟩
  · simp [h0, hB]
  · rw [hB, hp]
    simp

theorem mix_odd {α : Type} [Inhabited α] (v : Vec α) (o : ℕ → α) (i : ℕ) : mix v o (2 * i + 1) = o i := by
  unfold mix
  rw [if_neg (by omega), show (2 * i + 1) / 2 = i by omega]

theorem mix_congr {α : Type} [Inhabited α] {v : Vec α} {o o' : ℕ → α} {i : ℕ} {x : α}
    (h : ∀ j, o' j = if j = i then x else o j) : mix v o' = fun j => if j = 2 * i + 1 then x else mix v o j := by
  funext j
  unfold mix
  by_cases h2 : j % 2 = 0
  · rw [if_pos h2, if_neg (by omega), if_pos h2]
  · rw [if_neg h2, if_neg h2, h]
    by_cases hj : j / 2 = i
    · rw [if_pos hj, if_pos (by omega)]
    · rw [if_neg hj, if_neg (by omega)]

theorem get_mk_default {α : Type} [Inhabited α] (n i : ℕ) : (Vec.mk' n (default : α)).get i = default := by
  by_cases h : i < n
  · exact Vec.get_mk' n _ i h
  · unfold Vec.get Vec.mk'
    simp [h]

theorem get_out {α : Type} [Inhabited α] {v : Vec α} {i : ℕ} (h : v.size ≤ i) : v.get i = default := by
  unfold Vec.get
  unfold Vec.size at h
  simp [h]

theorem mediumCrossOff_sim {al : Alloc} (hal : al.Valid) {t : St} {s : EratMedium} {sieve : Vec Byte} (sieveSize : ℕ)
    (hT : cap 128 (K + 1022) ≤ T)
    (h : Rel al T K 64 (fun _ => 0) (fun _ => []) 0 [] t (s.buckets, sieve)) :
    Sim (Refused T al) (mediumCrossOff al sieveSize t) (s.crossOff sieve sieveSize)
      (fun u r => Rel al T K 64 (fun _ => 0) (fun _ => []) 0 [] u (r.1.buckets, r.2)) := by
  unfold mediumCrossOff EratMedium.crossOff
  dsimp only
  refine Sim.bind_right (R := Rel al T K 64 (fun j => if 64 ≤ j then t.ptrs.get j else 0) (fun j => if 64 ≤ j then s.buckets.get j else []) 0 [])
    (Sim.forUp (R := fun i => Rel al T K 64 (fun j => if i ≤ j then t.ptrs.get j else 0) (fun j => if i ≤ j then s.buckets.get j else []) 0 [])
      ?_ 64 0 _ _ rfl (by omega) ?_) ?_
  · intro i u u' hi hu
    have hsz : t.ptrs.size = s.buckets.size := h.size
    by_cases hr : i < t.ptrs.size
    swap
    · right; left
      refine ⟨.oob, ?_, ?_⟩
      · unfold Vec.rd
        rw [if_neg hr]
        rfl
      · unfold Vec.rd
        rw [if_neg (by omega)]
        rfl
    rw [Vec.rd_ok hr, ok_bind, Vec.rd_ok (by omega), ok_bind]
    have e1 := mix_odd u.ptrs (fun j => if i ≤ j then t.ptrs.get j else 0) i
    have e2 := mix_odd u'.1 (fun j => if i ≤ j then s.buckets.get j else []) i
    simp only [le_refl, if_true] at e1 e2
    have c1 : mix u.ptrs (fun j => if i + 1 ≤ j then t.ptrs.get j else 0) = fun j => if j = 2 * i + 1 then 0 else mix u.ptrs (fun j => if i ≤ j then t.ptrs.get j else 0) j :=
      mix_congr (fun j => by
        by_cases hj : j = i
        · rw [if_pos hj, if_neg (by omega)]
        · rw [if_neg hj]
          by_cases h' : i ≤ j
          · rw [if_pos h', if_pos (by omega)]
          · rw [if_neg h', if_neg (by omega)])
    have c2 : mix u'.1 (fun j => if i + 1 ≤ j then s.buckets.get j else []) = fun j => if j = 2 * i + 1 then [] else mix u'.1 (fun j => if i ≤ j then s.buckets.get j else []) j :=
      mix_congr (fun j => by
        by_cases hj : j = i
        · rw [if_pos hj, if_neg (by omega)]
        · rw [if_neg hj]
          by_cases h' : i ≤ j
          · rw [if_pos h', if_pos (by omega)]
          · rw [if_neg h', if_neg (by omega)])
    by_cases hp : t.ptrs.get i = 0
    · have hB := (hu.inv.inv.zero (2 * i + 1)).1 (by rw [e1]; exact hp)
      rw [if_pos hp, ← e2, hB]
      refine Sim.pure ⟨hu.sieve, hu.size, hu.cnt, ?_⟩
      rw [c1, c2]
      refine cast ?_ hu.inv
      congr 1
      · funext j
        by_cases hj : j = 2 * i + 1
        · rw [if_pos hj, hj, e1, hp]
        · rw [if_neg hj]
      · funext j
        by_cases hj : j = 2 * i + 1
        · rw [if_pos hj, hj, hB]
        · rw [if_neg hj]
    · rw [if_neg hp]
      obtain ⟨b, s', k1, k2, k3⟩ := hu.inv.close (2 * i + 1) (by omega) (by rw [e1]; exact hp)
      rw [e1] at k1
      rw [e2, ← c1, ← c2] at k3
      rw [k1, ok_bind]
      dsimp only
      exact eachBucket_sim (t := { u with pool := s' }) (fun a c cl t t' h => mediumBucket_sim hal _ _ a c cl t t' hT h) ⟨hu.sieve, hu.size, hu.cnt, k3⟩
  · refine ⟨h.sieve, rfl, rfl, ?_⟩
    refine h.inv.perm (fun j => if j % 2 = 0 then j + 1 else j - 1) (fun j => if j % 2 = 0 then j + 1 else j - 1) ?_ ?_ ?_ ?_ ?_
    rotate_right
    · intro j
      split <;> omega
    · intro j
      split <;> split <;> omega
    · intro j
      split <;> split <;> omega
    · intro j
      unfold mix
      dsimp only
      by_cases hj : j % 2 = 0
      · rw [if_pos hj, if_pos hj, if_neg (by omega)]
        exact get_mk_default 64 _
      · rw [if_neg hj, if_neg hj, if_pos (by omega), if_pos (by omega)]
        congr 1
        omega
    · intro j
      unfold mix
      dsimp only
      by_cases hj : j % 2 = 0
      · rw [if_pos hj, if_pos hj, if_neg (by omega)]
        exact get_mk_default 64 _
      · rw [if_neg hj, if_neg hj, if_pos (by omega), if_pos (by omega)]
        congr 1
        omega
  · intro u r hu
    refine Sim.pure ⟨hu.sieve, hu.size, hu.cnt, ?_⟩
    refine cast ?_ hu.inv
    have h1 : t.ptrs.size = 64 := h.cnt
    have h2 : s.buckets.size = 64 := h.size.symm.trans h1
    congr 2
    · funext j
      split
      · exact get_out (by omega)
      · rfl
    · funext j
      split
      · exact get_out (by omega)
      · rfl

/-! ## EratBig -/

theorem bigStore_sim {al : Alloc} (hal : al.Valid) {n : ℕ} {oP : ℕ → ℕ} {oB : ℕ → Buckets} {ca : ℕ} {cl : Buckets} {t : St}
    {t' : Vec Buckets × Vec Byte} (hT : cap (2 * n) K ≤ T) (h : Rel al T K n oP oB ca cl t t') (s : EratBig) (prime mi wi : ℕ) :
    Sim (Refused T al) (bigStore al s prime mi wi t) (s.store t'.1 (prime / 30) mi wi) (fun u b => Rel al T (K + 1) n oP oB ca cl u (b, t'.2)) := by
  unfold bigStore EratBig.store
  rw [← bind_pure (pushAt t'.1 _ _)]
  refine (push_sim hal h.size h.cnt hT h.inv _ _).bind (fun r b hr => ?_)
  exact Sim.pure ⟨h.sieve, hr.1, hr.2.1.trans h.cnt, hr.2.2⟩

theorem bigPrime_sim {al : Alloc} (hal : al.Valid) {n : ℕ} {oP : ℕ → ℕ} {oB : ℕ → Buckets} {ca : ℕ} {cl : Buckets} (s : EratBig)
    (x : SievingPrime) {t : St} {t' : Vec Buckets × Vec Byte} (hT : cap (2 * n) K ≤ T) (h : Rel al T K n oP oB ca cl t t') :
    Sim (Refused T al) (bigPrime al s x t) (s.prime x t') (Rel al T (K + 1) n oP oB ca cl) := by
  unfold bigPrime EratBig.prime EratBig.store
  rw [h.sieve]
  refine Sim.same (fun q => ?_)
  refine (push_sim hal h.size h.cnt hT h.inv _ _).bind (fun r b hr => ?_)
  exact Sim.pure ⟨rfl, hr.1, hr.2.1.trans h.cnt, hr.2.2⟩

theorem bigBucket_sim {al : Alloc} (hal : al.Valid) {n : ℕ} {oP : ℕ → ℕ} {oB : ℕ → Buckets} (s : EratBig) (a : ℕ) (c : List SievingPrime)
    (cl : Buckets) (t : St) (t' : Vec Buckets × Vec Byte) (hT : cap (2 * n) (K + 1022) ≤ T) (h : Rel al T K n oP oB a (c :: cl) t t') :
    Sim (Refused T al) (bigBucket al s a t) (c.foldlM (fun t pr => s.prime pr t) t') (Rel al T (K + c.length) n oP oB a (c :: cl)) := by
  obtain ⟨h1, h2, h3, h4, h5⟩ := h.inv.inv.head
  unfold bigBucket
  rw [rdB_ok h1, ok_bind, h4]
  have hlen := h5.1
  exact eachPrime_sim (al := al) (cl := cl) (R := fun j => Rel al T (K + j) n oP oB a (c :: cl)) (fun j t t' h => ⟨_, _, h.inv.inv⟩)
    (fun j x t t' hj h => bigPrime_sim hal s x ((cap_mono (show K + j ≤ K + 1022 by omega)).trans hT) h) t t' h

theorem mix_rot {α : Type} [Inhabited α] {v : Vec α} {n : ℕ} (hv : v.size = n) (j : ℕ) :
    mix (Vec.ofFn v.size (fun i => if i + 1 < v.size then v.get (i + 1) else v.get 0)) (fun _ => default) j =
      mix v (fun _ => default)
        (if j % 2 = 0 then (if j / 2 + 1 < n then j + 2 else if j / 2 + 1 = n then 0 else j) else j) := by
  unfold mix
  rw [hv]
  by_cases hj : j % 2 = 0
  · rw [if_pos hj, if_pos hj]
    by_cases h1 : j / 2 + 1 < n
    · rw [if_pos h1, Vec.get_ofFn _ _ _ (by omega), if_pos h1, if_pos (by omega)]
      congr 1
      omega
    · rw [if_neg h1]
      by_cases h2 : j / 2 + 1 = n
      · rw [if_pos h2, Vec.get_ofFn _ _ _ (by omega), if_neg h1]
        rfl
      · rw [if_neg h2, if_pos hj, get_out (by simp; omega), get_out (by omega)]
  · rw [if_neg hj, if_neg hj, if_neg hj]

theorem bigCrossOff_sim {al : Alloc} (hal : al.Valid) {n : ℕ} {t : St} {s : EratBig} {sieve : Vec Byte}
    (hT : cap (2 * n) (K + 1022) ≤ T)
    (h : Rel al T K n (fun _ => 0) (fun _ => []) 0 [] t (s.buckets, sieve)) :
    Sim (Refused T al) (bigCrossOff al s t) (s.crossOff sieve)
      (fun u r => Rel al T K n (fun _ => 0) (fun _ => []) 0 [] u (r.1.buckets, r.2)) := by
  unfold bigCrossOff EratBig.crossOff EratBig.rounds
  refine Sim.bind (R := Rel al T K n (fun _ => 0) (fun _ => []) 0 []) (Sim.loop (R := Rel al T K n (fun _ => 0) (fun _ => []) 0 []) ?_ _ _ _ h) ?_
  · intro u u' hu
    by_cases hr : 0 < u.ptrs.size
    swap
    · right; left
      refine ⟨.oob, ?_, ?_⟩
      · unfold Vec.rd
        rw [if_neg hr]
        rfl
      · unfold Vec.rd
        rw [if_neg (by rw [← hu.size]; exact hr)]
        rfl
    have hr' : 0 < u'.1.size := by rw [← hu.size]; exact hr
    rw [Vec.rd_ok hr, ok_bind, Vec.rd_ok hr', ok_bind]
    have e1 := mix_even u.ptrs (fun _ => 0) 0
    have e2 := mix_even u'.1 (fun _ => []) 0
    rw [Nat.mul_zero] at e1 e2
    have hz := hu.inv.inv.zero 0
    rw [e1, e2] at hz
    by_cases hp : u.ptrs.get 0 = 0
    · rw [if_pos hp, hz.1 hp]
      exact Sim.pure hu
    · rw [if_neg hp]
      have hB : u'.1.get 0 ≠ [] := fun h => hp (hz.2 h)
      obtain ⟨b, s', k1, k2, k3⟩ := hu.inv.close 0 (by have := hu.cnt; omega) (by rw [e1]; exact hp)
      rw [e1] at k1
      have m1 := mix_set (o := fun _ => 0) (x := 0) hr
      have m2 := mix_set (o := fun _ => ([] : Buckets)) (x := []) hr'
      rw [Nat.mul_zero] at m1 m2
      rw [e2, ← m1, ← m2] at k3
      rw [k1, ok_bind]
      dsimp only
      rw [Vec.wr_ok hr, ok_bind]
      generalize hl : u'.1.get 0 = l at hB k3
      cases l with
      | nil => exact absurd rfl hB
      | cons c cs =>
        dsimp only
        rw [Vec.wr_ok hr', ok_bind]
        refine Sim.bind (eachBucket_sim (k := n) (t := { u with pool := s', ptrs := u.ptrs.set 0 0 }) (t' := (u'.1.set 0 [], u'.2))
          (fun a c cl t t' h => bigBucket_sim hal s a c cl t t' hT h)
          ⟨hu.sieve, by simp [hu.size], by simp [hu.cnt], k3⟩) (fun v v' hv => ?_)
        exact Sim.pure (R := StepR _ _) hv
  · intro u r hu
    refine Sim.pure ⟨hu.sieve, ?_, ?_, ?_⟩
    · show (rotatePtrs u.ptrs).size = (rotate1 r.1).size
      unfold rotatePtrs rotate1
      rw [Vec.size_ofFn, Vec.size_ofFn]
      exact hu.size
    · show (rotatePtrs u.ptrs).size = n
      unfold rotatePtrs
      rw [Vec.size_ofFn]
      exact hu.cnt
    · refine hu.inv.perm (fun j => if j % 2 = 0 then (if j / 2 + 1 < n then j + 2 else if j / 2 + 1 = n then 0 else j) else j)
        (fun j => if j % 2 = 0 then (if j = 0 then (if n = 0 then 0 else 2 * (n - 1)) else if j / 2 < n then j - 2 else j) else j) ?_ ?_ ?_ ?_ ?_
      rotate_right
      · intro j
        split_ifs <;> omega
      · intro j
        split_ifs <;> omega
      · intro j
        by_cases h1 : j % 2 = 0
        · rw [if_pos h1]
          by_cases h2 : j / 2 + 1 < n
          · rw [if_pos h2, if_pos (by omega), if_neg (by omega), if_pos (by omega)]
            omega
          · rw [if_neg h2]
            by_cases h3 : j / 2 + 1 = n
            · rw [if_pos h3, if_pos (by omega), if_pos rfl, if_neg (by omega)]
              omega
            · rw [if_neg h3, if_pos h1]
              by_cases h4 : j = 0
              · rw [if_pos h4, if_pos (by omega), h4]
              · rw [if_neg h4, if_neg (by omega)]
        · rw [if_neg h1, if_neg h1]
      · intro j
        exact mix_rot hu.cnt j
      · intro j
        exact mix_rot (hu.size.symm.trans hu.cnt) j

/-! ## An empty pool -/

theorem rel_init {mem : ℕ → Bkt} {n : ℕ} {S : Vec Byte} :
    Rel al T 0 n (fun _ => 0) (fun _ => []) 0 [] ⟨{ mem := mem }, Vec.mk' n 0, S⟩ (Vec.mk' n [], S) := by
  have e1 : ∀ i, mix (Vec.mk' n 0 : Vec ℕ) (fun _ => 0) i = 0 := by
    intro i
    unfold mix
    split
    · exact get_mk_default n _
    · rfl
  have e2 : ∀ i, mix (Vec.mk' n [] : Vec Buckets) (fun _ => []) i = [] := by
    intro i
    unfold mix
    split
    · exact get_mk_default n _
    · rfl
  refine ⟨rfl, by simp, by simp, ⟨fun _ => .stock, fun _ => [], [], [], ?_⟩, fun i _ => e2 i, fun i => by rw [e2]; exact tight_nil, tight_nil,
    le_of_eq ?_⟩
  swap
  · simp only [e2]
    simp [items]
  refine ⟨fun i => Or.inl ⟨e1 i, e2 i, rfl⟩, fun _ => List.nodup_nil, fun _ b hb => absurd hb List.not_mem_nil, .nil, List.nodup_nil,
    fun b hb => absurd hb List.not_mem_nil, .nil, List.nodup_nil, fun b hb => absurd hb List.not_mem_nil, le_refl _,
    show 64 ≤ 2048 by decide,
    ⟨fun c hc => absurd hc List.not_mem_nil, .nil⟩, ?_⟩
  rintro b ⟨-, -, c, hc, -⟩
  exact absurd hc List.not_mem_nil

end PS.Psv.Mem
