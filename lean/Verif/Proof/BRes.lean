import Verif.Proof.Res

/-!
# Values with bounds

`S.Rep r z a` says that `r` stands for the integer `z`, which was computed with intermediate results of absolute
value at most `a`.  `lawful` forgets the bound; with the overflow-checking type (Proof/Checked.lean) `r` is the value
`z` as long as the bound fits.
-/

namespace PS

/-- What the proofs need about a result type. -/
structure BRes (R : Type) [Res R] where
  Rep : R → ℤ → ℤ → Prop
  /-- arguments of `phi_sum` for which the implementation is right -/
  PhiOk : ℕ → ℕ → Prop
  /-- the bounds of factors -/
  Lim : ℤ → Prop
  /-- values are represented modulo `mod`, 0 for equality -/
  mod : ℤ
  rep_near : ∀ z z', -2 ^ 127 ≤ z → z < 2 ^ 127 → mod ∣ z - z' → Rep (Res.ofInt z) z' |z'|
  rep_add : ∀ r r' x s y t, Rep r x s → Rep r' y t → Rep (Res.add r r') (x + y) (s + t)
  rep_sub : ∀ r r' x s y t, Rep r x s → Rep r' y t → Rep (Res.sub r r') (x - y) (s + t)
  rep_mul : ∀ r r' x s y t, Rep r x s → Rep r' y t → -2 ^ 127 ≤ x → x < 2 ^ 255 → -2 ^ 127 ≤ y → y < 2 ^ 255 →
    Lim s → Lim t → Rep (Res.mul r r') (x * y) (s * t)
  rep_phi : ∀ x c, PhiOk x c → Ok (Res.phiSumR (R := R) x c) (fun r => Rep r (phiSum x c) (phiSum x c))
  phiOk_div : ∀ x c m, 1 ≤ m → Rough c m → PhiOk x c → PhiOk (x / m) c
  phiOk_anti : ∀ x c c', c' ≤ c → PhiOk x c → PhiOk x c'
  phiOk_lt : ∀ x c, PhiOk x c → x < 2 ^ 127
  phiOk_lim : ∀ x c, PhiOk x c → Lim (phiSum x c)
  lim_small : ∀ a, a < 2 ^ 127 → Lim a

namespace BRes

/-- Without bounds. -/
def lawful (R : Type) [Res R] [LawfulRes R] : BRes R where
  Rep r z _ := LawfulRes.Rep r z
  PhiOk := LawfulRes.PhiOk R
  Lim _ := True
  mod := 0
  rep_near z z' h1 h2 h3 := by
    rw [zero_dvd_iff, sub_eq_zero] at h3
    subst h3
    exact LawfulRes.rep_ofInt z h1 h2
  rep_add r r' x _ y _ := LawfulRes.rep_add r r' x y
  rep_sub r r' x _ y _ := LawfulRes.rep_sub r r' x y
  rep_mul r r' x _ y _ h1 h2 h3 h4 h5 h6 _ _ := LawfulRes.rep_mul r r' x y h1 h2 h3 h4 h5 h6
  rep_phi := LawfulRes.rep_phi
  phiOk_div := LawfulRes.phiOk_div
  phiOk_anti := LawfulRes.phiOk_anti
  phiOk_lt := LawfulRes.phiOk_lt
  phiOk_lim _ _ _ := trivial
  lim_small _ _ := trivial

variable {R : Type} [Res R] (S : BRes R)

theorem rep_ofInt (z : ℤ) (h1 : -2 ^ 127 ≤ z) (h2 : z < 2 ^ 127) : S.Rep (Res.ofInt z) z |z| :=
  S.rep_near z z h1 h2 (by rw [sub_self]; exact dvd_zero _)

theorem rep_zero : S.Rep (Res.ofInt 0) 0 0 := by
  have := S.rep_ofInt 0 (by norm_num) (by norm_num)
  simpa using this

end BRes
end PS
