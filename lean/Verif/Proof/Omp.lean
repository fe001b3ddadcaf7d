import Verif.Model.Omp
import Mathlib.Algebra.BigOperators.Intervals
import Mathlib.Tactic.Abel
import Mathlib.Algebra.BigOperators.Group.List.Basic

namespace PS
open Finset

theorem Scheduler.seq_valid : Scheduler.seq.Valid := fun _ lo hi => by simp [Sched, Scheduler.seq]

theorem foldlM_ok {α β : Type} {f : β → α → M β} (P : List α → β → Prop) (l : List α) {b : β}
    (h0 : P [] b)
    (hs : ∀ pre a b, pre ++ [a] <+: l → P pre b → Ok (f b a) (P (pre ++ [a]))) :
    Ok (l.foldlM f b) (P l) := by
  suffices H : ∀ (suf pre : List α) (b : β), pre ++ suf = l → P pre b → Ok (suf.foldlM f b) (P l) by
    exact H l [] b rfl h0
  intro suf
  induction suf with
  | nil =>
    intro pre b hp hb
    rw [List.append_nil] at hp; subst hp
    exact Ok.pure hb
  | cons a suf ih =>
    intro pre b hp hb
    rw [List.foldlM_cons]
    refine Ok.bind (hs pre a b ⟨suf, by simpa using hp⟩ hb) (fun b' hb' => ?_)
    exact ih (pre ++ [a]) b' (by simpa using hp) hb'

/-- The run does not return. -/
def Fails {α : Type} (m : M α) : Prop := ∀ a, m ≠ .ok a

theorem Fails.error {α : Type} (e : Err) : Fails (.error e : M α) := fun _ h => by simp at h

theorem Fails.bind {α β : Type} {m : M α} {f : α → M β} (h : ∀ a, m = .ok a → Fails (f a)) : Fails (m >>= f) := by
  intro b hb
  cases hm : m with
  | error e => rw [hm] at hb; simp at hb
  | ok a => rw [hm, ok_bind] at hb; exact h a hm b hb

theorem Fails.bind_left {α β : Type} {m : M α} {f : α → M β} (h : Fails m) : Fails (m >>= f) :=
  Fails.bind (fun a ha => absurd ha (h a))

theorem Fails.foldlM {α β : Type} {f : β → α → M β} {l : List α} {a : α} (ha : a ∈ l) (hf : ∀ b, Fails (f b a)) (b : β) :
    Fails (l.foldlM f b) := by
  induction l generalizing b with
  | nil => simp at ha
  | cons c l ih =>
    rw [List.foldlM_cons]
    rcases List.mem_cons.1 ha with rfl | h
    · exact (hf b).bind_left
    · exact Fails.bind (fun b' _ => ih h b')

theorem Ok.region {α : Type} {m : M α} {P : α → Prop} (h : Ok m P) : Ok (region m) P := by
  obtain ⟨a, rfl, ha⟩ := h
  exact ⟨a, rfl, ha⟩

theorem Fails.region {α : Type} {m : M α} (h : Fails m) : Fails (region m) := by
  intro a ha
  cases m with
  | ok b => exact h b rfl
  | error e => cases e <;> cases ha

/-- A parallel loop does not return if one of its iterations does not. -/
theorem ompFor_fails {σ R : Type} {add : R → R → R} {zero init : R} {st : σ} {sched : List (List ℕ)}
    {body : ℕ → σ → R → M (σ × R)} {lo hi i : ℕ} (hsched : Sched lo hi sched) (h1 : lo ≤ i) (h2 : i < hi)
    (hbody : ∀ s r, Fails (body i s r)) : Fails (ompFor add zero init st sched body) := by
  have : i ∈ sched.flatten := by
    rw [hsched.mem_iff, List.mem_range'_1]; omega
  obtain ⟨its, hi1, hi2⟩ := List.mem_flatten.1 this
  refine Fails.region (Fails.foldlM hi1 (fun acc => ?_) _)
  exact (Fails.foldlM hi2 (fun sr => hbody _ _) _).bind_left

/-- The result of a parallel loop does not depend on the schedule: it represents the initial value plus the
contributions of all iterations.  Only parts of the total are ever added up. -/
theorem ompForM_ok {σ R A : Type} [AddCommMonoid A] {add : R → R → M R} {zero init : R} {st : σ} {sched : List (List ℕ)}
    {body : ℕ → σ → R → M (σ × R)} (Rep : R → A → Prop) (Inv : σ → Prop) (f : ℕ → A) {lo hi : ℕ} {z0 : A}
    (hadd : ∀ a b x y d, x + y + d = z0 + ∑ i ∈ Ico lo hi, f i → Rep a x → Rep b y →
      Ok (add a b) (fun r => Rep r (x + y)))
    (hzero : Rep zero 0) (hinit : Rep init z0) (hst : Inv st) (hsched : Sched lo hi sched)
    (hbody : ∀ i s r z d, lo ≤ i → i < hi → z + f i + d = z0 + ∑ i ∈ Ico lo hi, f i → Inv s → Rep r z →
      Ok (body i s r) (fun sr => Inv sr.1 ∧ Rep sr.2 (z + f i))) :
    Ok (ompForM add zero init st sched body) (fun r => Rep r (z0 + ∑ i ∈ Ico lo hi, f i)) := by
  have hmem : ∀ its ∈ sched, ∀ i ∈ its, lo ≤ i ∧ i < hi := by
    intro its h1 i h2
    have : i ∈ sched.flatten := List.mem_flatten.2 ⟨its, h1, h2⟩
    have := (hsched.mem_iff).1 this
    rw [List.mem_range'_1] at this
    omega
  have hsum : (sched.flatten.map f).sum = ∑ i ∈ Ico lo hi, f i := by
    rw [(hsched.map f).sum_eq]
    clear hsched hmem hbody hadd
    obtain ⟨n, hn⟩ : ∃ n, hi - lo = n := ⟨_, rfl⟩
    rw [hn]
    by_cases h : lo ≤ hi
    · obtain rfl : hi = lo + n := by omega
      clear hn h
      induction n with
      | zero => simp
      | succ n ih =>
        rw [List.range'_concat, List.map_append, List.sum_append, ih, ← Nat.add_assoc,
          Finset.sum_Ico_succ_top (by omega)]
        simp
    · have : n = 0 := by omega
      subst this
      rw [Finset.Ico_eq_empty (by omega)]; simp
  unfold ompForM
  refine Ok.region ?_
  refine (foldlM_ok (fun pre acc => Rep acc (z0 + (pre.flatten.map f).sum)) sched (by simpa using hinit) ?_).mono
    (fun r hr => by rw [← hsum]; exact hr)
  intro pre' its acc hpre hacc
  have hits : ∀ i ∈ its, lo ≤ i ∧ i < hi :=
    hmem its (hpre.subset (by simp))
  refine Ok.bind (foldlM_ok (fun pre (sr : σ × R) => Inv sr.1 ∧ Rep sr.2 ((pre.map f).sum)) its
    ⟨hst, by simpa using hzero⟩ ?_) (fun sr hsr => ?_)
  · intro pre i sr hp hsr
    have := hits i (hp.subset (by simp))
    obtain ⟨q, hq⟩ := hp
    obtain ⟨suf, hsuf⟩ := hpre
    refine (hbody i sr.1 sr.2 _ (z0 + (pre'.flatten.map f).sum + (q.map f).sum + (suf.flatten.map f).sum)
      this.1 this.2 ?_ hsr.1 hsr.2).mono (fun sr' h => ⟨h.1, ?_⟩)
    · rw [← hsum, ← hsuf, ← hq]
      simp only [List.flatten_append, List.map_append, List.sum_append, List.flatten_singleton, List.map_singleton,
        List.sum_singleton]
      abel
    · simpa using h.2
  · obtain ⟨suf, hsuf⟩ := hpre
    refine (hadd _ _ _ _ (suf.flatten.map f).sum ?_ hacc hsr.2).mono (fun r hr => ?_)
    · rw [← hsum, ← hsuf]
      simp only [List.flatten_append, List.map_append, List.sum_append, List.flatten_singleton]
      abel
    · simpa [add_assoc] using hr

theorem ompFor_eq {σ R : Type} {add : R → R → R} {zero init : R} {st : σ} {sched : List (List ℕ)}
    {body : ℕ → σ → R → M (σ × R)} :
    ompFor add zero init st sched body = ompForM (fun a b => pure (add a b)) zero init st sched body := rfl

/-- The same for a total addition. -/
theorem ompFor_ok {σ R A : Type} [AddCommMonoid A] {add : R → R → R} {zero init : R} {st : σ} {sched : List (List ℕ)}
    {body : ℕ → σ → R → M (σ × R)} (Rep : R → A → Prop) (Inv : σ → Prop) (f : ℕ → A) {lo hi : ℕ} {z0 : A}
    (hadd : ∀ a b x y, Rep a x → Rep b y → Rep (add a b) (x + y))
    (hzero : Rep zero 0) (hinit : Rep init z0) (hst : Inv st) (hsched : Sched lo hi sched)
    (hbody : ∀ i s r z, lo ≤ i → i < hi → Inv s → Rep r z →
      Ok (body i s r) (fun sr => Inv sr.1 ∧ Rep sr.2 (z + f i))) :
    Ok (ompFor add zero init st sched body) (fun r => Rep r (z0 + ∑ i ∈ Ico lo hi, f i)) := by
  rw [ompFor_eq]
  exact ompForM_ok Rep Inv f (fun a b x y _ _ h1 h2 => Ok.pure (hadd a b x y h1 h2)) hzero hinit hst hsched
    (fun i s r z _ h1 h2 _ h3 h4 => hbody i s r z h1 h2 h3 h4)

end PS
