import Verif.Model.MainIter
import Verif.Proof.PiIter
import Verif.Proof.LmoTop

/-!
# The program with the primesieve library does what the program with the primes does
-/

namespace PS
open Psv Psv.Mem Res

variable {B F : Prop} {env : Psv.Env} {H : Heaps}

theorem phiSum64It_ref (h : H.Good F) (x a : ℕ) : Ref B F (phiSum64It env H x a) (phiSum64 x a) := by
  unfold phiSum64It phiSum64
  exact Ref.ite (fun _ => Ref.refl) (fun _ => Ref.ite (fun _ => Ref.refl)
    (fun _ => (generateNPrimesIt_ref h a).bind (fun _ _ => Ref.refl)))

theorem phiSumMIt_ref (h : H.Good F) (x a : ℕ) : Ref B F (phiSumMIt env H x a) (phiSumM x a) := by
  unfold phiSumMIt phiSumM
  exact Ref.ite (fun _ => (phiSum64It_ref h x a).bind (fun _ _ => Ref.refl)) (fun _ => Ref.ite (fun _ => Ref.refl)
    (fun _ => (generateNPrimesIt_ref h a).bind (fun _ _ => Ref.refl)))

namespace Lmo

theorem s2Lmo1It_ref (h : H.Good F) (x y c piY : ℕ) (primes lpf : Vec ℕ) (mu : Vec ℤ) :
    Ref B F (s2Lmo1It env H x y c piY primes lpf mu) (s2Lmo1 x y c piY primes lpf mu) := by
  unfold s2Lmo1It s2Lmo1
  refine Ref.forUp (fun b s2 _ => Ref.same (fun pb _ => Ref.same (fun q _ => ?_))) _ _ _ rfl
  refine Ref.forUp (fun m s2 _ => Ref.same (fun l _ => Ref.same (fun pb _ => ?_))) _ _ _ rfl
  refine Ref.ite (fun _ => Ref.same (fun xn _ => ?_)) (fun _ => Ref.refl)
  exact (phiSumMIt_ref ((h.sub b).sub m) _ _).bind (fun _ _ => Ref.refl)

theorem piLmo1It_ref (h : H.Good F) (e : Pi.Env) (tiny : Vec PhiTiny.Tab) {x : ℤ} (hx : x < 2 ^ 63) :
    Ref True F (piLmo1It env H e tiny x) (piLmo1 e tiny x) := by
  unfold piLmo1It piLmo1
  refine Ref.ite (fun _ => Ref.refl) (fun h2 => ?_)
  dsimp only
  have hx' : x.toNat < 2 ^ 63 := by omega
  generalize x.toNat = x at *
  refine Ref.same (fun y hy => ?_)
  have hy62 : y < 2 ^ 62 := by
    rw [irootM_eq 3 _ _ (by norm_num)] at hy
    have h3 := iroot_le 3 x (by norm_num)
    rw [Except.ok.inj hy] at h3
    by_contra hc
    have : (2 ^ 62) ^ 3 ≤ y ^ 3 := Nat.pow_le_pow_left (by omega) 3
    norm_num at this
    omega
  refine (Phi.piLegendreIt_ref tiny _ y _ y le_rfl (h.sub 0) (by omega)).bind (fun piY _ => Ref.same (fun c _ => ?_))
  refine (generatePrimesIt_ref (h.sub 1) _ (by omega)).bind (fun primes _ => ?_)
  refine Ref.same (fun lpf _ => Ref.same (fun mu _ => Ref.same (fun s1 _ => ?_)))
  refine (s2Lmo1It_ref (h.sub 2) x y c _ primes lpf mu).bind (fun s2 _ => ?_)
  refine (P2.p2It_ref (h.sub 3) tiny _ _ 1 (by omega) hy62).bind (fun p2 _ => ?_)
  exact (Ref.of_sim (P2.primeSumTinyIt_sim env (h [4]) hy62)).bind (fun _ _ => Ref.refl)

theorem piLmoIt_ref (h : H.Good F) {e : Pi.Env} (hf : e.FP) (tiny : Vec PhiTiny.Tab) (threads : ℤ)
    (s2 : ℕ → ℕ → ℕ → Vec ℕ → Vec ℕ → Vec ℤ → M I256) {x : ℤ} (hx : x < 2 ^ 63) :
    Ref True F (piLmoIt env H e tiny threads s2 x) (piLmo e tiny threads s2 x) := by
  unfold piLmoIt piLmo
  refine Ref.ite (fun _ => Ref.refl) (fun h2 => ?_)
  dsimp only
  have hx' : x.toNat < 2 ^ 63 := by omega
  have hx2 : 2 ≤ x.toNat := by omega
  generalize x.toNat = x at *
  obtain ⟨h1, h2, h3⟩ := Pi.yL_facts hf (by omega : 1 ≤ x) (by omega)
  rw [Pi.getAlphaLmo_eq, ok_bind, ok_bind, irootM_eq 3 _ _ (by norm_num), ok_bind, ok_bind,
    Pi.yL_eq hf (by omega) (by omega), ok_bind, ok_bind]
  generalize e.yL x = y at *
  have hy62 : y < 2 ^ 62 := by nlinarith
  refine Ref.same (fun c _ => ?_)
  refine (P2.p2It_ref (h.sub 0) tiny _ _ threads (by omega) hy62).bind (fun p2 _ => ?_)
  refine Ref.same (fun mu _ => Ref.same (fun lpf _ => ?_))
  refine (generatePrimesIt_ref (h.sub 1) _ (by omega)).bind (fun primes _ => ?_)
  refine (s1It_ref (h.sub 2) _ x hy62 c).bind (fun s1 _ => Ref.same (fun s2 _ => ?_))
  exact (Ref.of_sim (P2.primeSumTinyIt_sim env (h [3]) hy62)).bind (fun _ _ => Ref.refl)

theorem toI64_ref {m m' : M I256} (h : Ref B F m m') : Ref B F (toI64 m) (toI64 m') := by
  unfold toI64
  exact h.bind (fun _ _ => Ref.refl)

end Lmo

namespace Main

theorem ofI64_ref {m m' : M ℤ} (h : Ref B F m m') : Ref B F (ofI64 m) (ofI64 m') := by
  unfold ofI64
  exact h.bind (fun _ _ => Ref.refl)

theorem int64Cast_lt {x y : ℤ} (h : int64Cast x = .ok y) : y < 2 ^ 63 := by
  unfold int64Cast at h
  split at h
  · cases h
  · rw [← Except.ok.inj h, Int.bmod_def]
    split <;> omega

theorem part_ref {e : Pi.Env} (hf : e.FP) (name : String) {x : ℤ}
    (hx : ∀ limit, Pi.getMaxX e.lib (e.alphaD x.toNat) = .ok limit → x ≤ limit → x < 2 ^ 106) {f g : ℕ → ℕ → ℕ → ℕ → M I256}
    (hfg : ∀ x y z c, x < 2 ^ 106 → y < 2 ^ 62 → Ref B F (f x y z c) (g x y z c)) : Ref B F (part name e x f) (part name e x g) := by
  unfold part
  refine Ref.ite (fun _ => Ref.refl) (fun h2 => ?_)
  dsimp only
  have hx1 : 1 ≤ x.toNat := by omega
  have hxx : ((x.toNat : ℕ) : ℤ) = x := by omega
  rw [← hxx] at hx
  rw [Int.toNat_natCast] at hx
  generalize x.toNat = x at *
  refine Ref.same (fun alpha ha => Ref.same (fun limit hl => Ref.ite (fun _ => Ref.refl) (fun hle => ?_)))
  rw [Pi.getAlpha_eq] at ha
  obtain rfl := Except.ok.inj ha
  have hx := hx limit hl (by omega)
  have hx : x < 2 ^ 106 := by omega
  obtain ⟨h1, h2, h3⟩ := Pi.y_facts hf hx1 hx
  rw [irootM_eq 3 _ _ (by norm_num), ok_bind, ok_bind, Pi.y_eq hf hx1 hx, ok_bind, ok_bind]
  generalize e.y x = y at *
  have hy62 : y < 2 ^ 62 := by nlinarith
  exact Ref.same (fun z _ => Ref.same (fun c _ => hfg x y z c hx hy62))

theorem runIt_ref (h : H.Good F) {e : Pi.Env} (hf : e.FP) (tiny : Vec PhiTiny.Tab) (o : Opt) {x : ℤ}
    (hx : ∀ limit, Pi.getMaxX e.lib (e.alphaD x.toNat) = .ok limit → x ≤ limit → x < 2 ^ 106) (threads : ℤ) :
    Ref True F (runIt env H e tiny o x threads) (run e tiny o x threads) := by
  have hpi : Ref True F (Pi.piIt env H e tiny x threads) (Pi.pi e tiny x threads) := by
    by_cases h2 : x < 2
    · unfold Pi.piIt Pi.pi
      rw [if_pos h2, if_pos h2]
      exact Ref.refl
    · have hxx : x = (x.toNat : ℕ) := by omega
      rw [hxx] at hx ⊢
      rw [Int.toNat_natCast] at hx
      exact Pi.piIt_ref h hf tiny (fun l h1 h2 => by have := hx l h1 h2; omega) threads
  have hlmo : ∀ {x : ℤ} {th : ℤ} {s2}, x < 2 ^ 63 → Ref True F (Lmo.piLmoIt env H e tiny th s2 x) (Lmo.piLmo e tiny th s2 x) :=
    fun hx => Lmo.piLmoIt_ref h hf tiny _ _ hx
  unfold runIt run
  cases o
  case delegliseRivat => exact hpi
  case delegliseRivatParallel1 => exact hpi
  case pi => exact hpi
  case lmo => exact Ref.same (fun y hy => hlmo (int64Cast_lt hy))
  case lmoParallel1 => exact Ref.same (fun y hy => hlmo (int64Cast_lt hy))
  case lmo1 => exact Ref.same (fun y hy => Lmo.piLmo1It_ref h e tiny (int64Cast_lt hy))
  case lmo2 => exact Ref.same (fun y hy => ofI64_ref (Lmo.toI64_ref (hlmo (int64Cast_lt hy))))
  case lmo3 => exact Ref.same (fun y hy => ofI64_ref (Lmo.toI64_ref (hlmo (int64Cast_lt hy))))
  case lmo4 => exact Ref.same (fun y hy => ofI64_ref (Lmo.toI64_ref (hlmo (int64Cast_lt hy))))
  case lmo5 => exact Ref.same (fun y hy => ofI64_ref (Lmo.toI64_ref (hlmo (int64Cast_lt hy))))
  case P2 => exact part_ref hf _ hx (fun x y z c hx hy => P2.p2It_ref h tiny _ _ threads (by omega) hy)
  case S1 => exact part_ref hf _ hx (fun x y z c _ hy => s1It_ref h _ x hy c)
  case S2Easy =>
    exact part_ref hf _ hx (fun x y z c _ hy => Ref.ite (fun _ => S2Easy.s2EasyLibIt_ref h _ x hy z c)
      (fun _ => S2Easy.s2EasyIt_ref h _ x hy z c))
  case S2Hard => exact part_ref hf _ hx (fun x y z c _ _ => S2Hard.s2HardIt_ref h _ x y z c threads)
  case S2Trivial => exact part_ref hf _ hx (fun x y z c _ hy => S2Trivial.s2TrivialIt_ref h _ x hy z c threads)
  all_goals exact Ref.refl

end Main
end PS
