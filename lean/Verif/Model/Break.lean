import Verif.Base

/-!
# `for` loops that can be left by `break` or `goto`
-/

namespace PS

/-- `for (b = lo; b < hi; b++) s = f(b, s)`, left early if `f` returns `true`.  Returns whether the loop was
left early, the value of `b` and the state. -/
def forBrk {σ : Type} (lo hi : ℕ) (s : σ) (f : ℕ → σ → M (Bool × σ)) : M (Bool × ℕ × σ) :=
  if lo < hi then do
    let r ← f lo s
    if r.1 then .ok (true, lo, r.2)
    else forBrk (lo + 1) hi r.2 f
  else .ok (false, lo, s)
termination_by hi - lo

theorem forBrk_ok {σ : Type} {lo hi : ℕ} {s : σ} {f : ℕ → σ → M (Bool × σ)} (Inv : ℕ → σ → Prop)
    (Q : ℕ → σ → Prop) (h0 : Inv lo s)
    (hs : ∀ i s, lo ≤ i → i < hi → Inv i s →
      Ok (f i s) (fun r => (r.1 = true → Q i r.2) ∧ (r.1 = false → Inv (i + 1) r.2))) :
    Ok (forBrk lo hi s f) (fun r => (r.1 = true → lo ≤ r.2.1 ∧ r.2.1 < hi ∧ Q r.2.1 r.2.2) ∧
      (r.1 = false → r.2.1 = max lo hi ∧ Inv r.2.1 r.2.2)) := by
  induction hn : hi - lo generalizing lo s with
  | zero =>
    unfold forBrk
    rw [if_neg (by omega)]
    exact Ok.ok ⟨fun h => by simp at h, fun _ => ⟨(by show lo = max lo hi; omega), h0⟩⟩
  | succ n ih =>
    unfold forBrk
    rw [if_pos (by omega)]
    refine Ok.bind (hs lo s (Nat.le_refl _) (by omega) h0) (fun r hr => ?_)
    refine Ok.ite (fun h => Ok.ok ?_) (fun h => ?_)
    · exact ⟨fun _ => ⟨(Nat.le_refl _), (by show lo < hi; omega), hr.1 h⟩, fun h => by simp at h⟩
    · refine (ih (hr.2 (by simpa using h)) (fun i s h1 h2 h3 => hs i s (by omega) h2 h3) (by omega)).mono
        (fun r hr => ⟨fun h => ?_, fun h => ?_⟩)
      · have := hr.1 h; exact ⟨by omega, this.2⟩
      · have := hr.2 h; exact ⟨by omega, this.2⟩

end PS
