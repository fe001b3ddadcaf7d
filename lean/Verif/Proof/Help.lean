import Verif.Model.Help
import Verif.Proof.Dbl

/-!
# The output of the self-test
-/

namespace PS.Print

variable {α β σ : Type}

/-- `t` computes what `m` computes and, if that is a value, writes `u`. -/
def Says (t : T α) (m : M α) (u : Text) : Prop :=
  ∀ s, (t.run.run s).1 = m ∧ (∀ a, m = .ok a → (t.run.run s).2 = s ++ u)

theorem run_bind (t : T α) (f : α → T β) (s : Text) : (t >>= f).run.run s =
    match t.run.run s with
    | (.ok a, s') => (f a).run.run s'
    | (.error e, s') => (.error e, s') := by
  rw [ExceptT.run_bind, StateT.run_bind]
  obtain ⟨r, s', e⟩ : ∃ r s', t.run.run s = (r, s') := ⟨_, _, rfl⟩
  rw [e]
  cases r <;> rfl

theorem Says.bind {t : T α} {m : M α} {u v : Text} {f : α → T β} {g : α → M β} (h : Says t m u) (hf : ∀ a, Says (f a) (g a) v) :
    Says (t >>= f) (m >>= g) (u ++ v) := by
  intro s
  obtain ⟨h1, h2⟩ := h s
  rw [run_bind]
  obtain ⟨r, s', e⟩ : ∃ r s', t.run.run s = (r, s') := ⟨_, _, rfl⟩
  rw [e] at h1 h2 ⊢
  subst h1
  cases r with
  | error err => exact ⟨rfl, fun a h => by cases h⟩
  | ok a =>
    obtain ⟨h3, h4⟩ := hf a s'
    have h5 := h2 a rfl
    dsimp only at h5
    subst h5
    exact ⟨h3, fun b hb => by rw [h4 b hb, List.append_assoc]⟩

theorem Says.put (u : Text) : Says (put u) (.ok ()) u := fun _ => ⟨rfl, fun _ _ => rfl⟩
theorem Says.pure (a : α) : Says (pure a) (.ok a) [] := fun s => ⟨rfl, fun _ _ => (List.append_nil s).symm⟩
theorem Says.quiet (m : M α) : Says (quiet m) m [] := fun s => ⟨rfl, fun _ _ => (List.append_nil s).symm⟩

/-- A text before everything else. -/
theorem Says.putBind {u v : Text} {t : T α} {m : M α} (h : Says t m v) : Says (do Print.put u; t) m (u ++ v) :=
  Says.bind (g := fun _ => m) (Says.put u) (fun _ => h)

/-- A computation that writes nothing and whose value is known. -/
theorem Says.knownBind {a : β} {v : Text} {f : β → T α} {m : M α} (h : Says (f a) m v) : Says (do let a ← Print.quiet (.ok a); f a) m v := by
  intro s
  rw [run_bind]
  exact h s

/-- A text after everything else. -/
theorem Says.bindPut {u v : Text} {t : T Unit} {m : M Unit} (h : Says t m u) : Says (do t; Print.put v) m (u ++ v) := by
  have := Says.bind (g := fun _ => .ok ()) h (fun _ => Says.put v)
  have e : (m >>= fun _ => .ok ()) = m := by cases m <;> rfl
  rwa [e] at this

theorem Says.forT {lo hi : ℕ} {s : σ} {f : ℕ → σ → T σ} {g : ℕ → σ → M σ} (txt : ℕ → Text)
    (h : ∀ i s, lo ≤ i → i < hi → Says (f i s) (g i s) (txt i)) :
    Says (Print.forT lo hi s f) (forUp lo hi s g) ((List.range' lo (hi - lo)).map txt).flatten := by
  induction hn : hi - lo generalizing lo s with
  | zero =>
    unfold Print.forT forUp
    rw [if_neg (by omega), if_neg (by omega)]
    exact Says.pure s
  | succ n ih =>
    unfold Print.forT forUp
    rw [if_pos (by omega), if_pos (by omega), List.range'_succ, List.map_cons, List.flatten_cons]
    refine Says.bind (h lo s le_rfl (by omega)) (fun s' => ?_)
    exact ih (fun i s h1 h2 => h i s (by omega) h2) (by omega)

/-- The text of one comparison. -/
def progress (name : String) (iters : ℕ) : Text :=
  "Testing ".toList ++ name.toList ++ "(x)".toList ++
    ((List.range iters).map (fun i => "\rTesting ".toList ++ name.toList ++ "(x) ".toList ++ (toString (100 * (i + 1) / iters)).toList ++
      "%".toList)).flatten ++ ['\n']

theorem checkOut_says (e : SelfTest.Env) (k : ℕ) (name : String) (f1 f2 : Pi.Env → ℤ → M I256) (iters : ℕ)
    (hp : ∀ i < iters, testPercent i iters = .ok ((100 * (i + 1) / iters : ℕ) : ℤ)) :
    Says (checkOut e k name f1 f2 iters) (SelfTest.check e k name f1 f2 iters) (progress name iters) := by
  have step : ∀ i (x : ℤ), i < iters → Says (do
      quiet (do
        let r1 ← f1 (e.alg k 1 i false x) x
        let r2 ← f2 (e.alg k 1 i true x) x
        SelfTest.checkEqual name x r1 r2)
      let percent ← quiet (testPercent i iters)
      put ("\rTesting ".toList ++ name.toList ++ "(x) ".toList ++ num percent ++ "%".toList)
      pure (x + SelfTest.getRand (e.rand k i))) (do
      let r1 ← f1 (e.alg k 1 i false x) x
      let r2 ← f2 (e.alg k 1 i true x) x
      SelfTest.checkEqual name x r1 r2
      pure (x + SelfTest.getRand (e.rand k i)))
      ("\rTesting ".toList ++ name.toList ++ "(x) ".toList ++ (toString (100 * (i + 1) / iters)).toList ++ "%".toList) := by
    intro i x hi
    rw [hp i hi]
    have h := Says.bind (g := fun _ => .ok (x + SelfTest.getRand (e.rand k i))) (Says.quiet (do
        let r1 ← f1 (e.alg k 1 i false x) x
        let r2 ← f2 (e.alg k 1 i true x) x
        SelfTest.checkEqual name x r1 r2)) (fun _ =>
      Says.knownBind (a := ((100 * (i + 1) / iters : ℕ) : ℤ)) (f := fun percent => do
        put ("\rTesting ".toList ++ name.toList ++ "(x) ".toList ++ num percent ++ "%".toList)
        pure (x + SelfTest.getRand (e.rand k i))) (Says.putBind (Says.pure (x + SelfTest.getRand (e.rand k i)))))
    rw [List.nil_append, List.append_nil] at h
    simp only [bind_assoc] at h
    exact h
  have h1 := Says.forT (lo := 0) (hi := 10000) (s := ()) (f := fun x _ => quiet (do
      let r1 ← f1 (e.alg k 0 x false x) x
      let r2 ← f2 (e.alg k 0 x true x) x
      SelfTest.checkEqual name x r1 r2)) (fun _ => []) (fun i s _ _ => Says.quiet _)
  have h2 := Says.forT (lo := 0) (hi := iters) (s := (0 : ℤ)) _ (fun i s _ h => step i s h)
  have h3 := Says.putBind (u := "Testing ".toList ++ name.toList ++ "(x)".toList) (Says.bind h1 (fun _ =>
    Says.bind (g := fun _ => .ok ()) h2 (fun _ => Says.put nl)))
  have e1 : ((List.range' 0 (10000 - 0)).map (fun _ => ([] : Text))).flatten = [] := by
    generalize List.range' 0 (10000 - 0) = l
    induction l with
    | nil => rfl
    | cons a l ih => simp
  rw [e1, List.nil_append, Nat.sub_zero, ← List.range_eq_range'] at h3
  unfold progress
  rw [List.append_assoc]
  exact h3

theorem testPhiOut_says (e : SelfTest.Env) (tiny : Vec PhiTiny.Tab) (n : ℕ) :
    Says (testPhiOut e tiny n) (SelfTest.testPhi e tiny n) "Testing phi(x, a)\rTesting phi(x, a) 100%\n".toList := by
  have := Says.putBind (u := "Testing phi(x, a)".toList) (Says.bindPut (v := "\rTesting phi(x, a) 100%".toList ++ nl)
    (Says.quiet (SelfTest.testPhi e tiny n)))
  exact this

/-- The text of a successful self-test. -/
def testText (omp : Bool) : Text :=
  (if omp then "Testing phi(x, a)\rTesting phi(x, a) 100%\n".toList else []) ++
  (progress "pi_lmo1" 50 ++ progress "pi_lmo2" 100 ++ progress "pi_lmo3" 300 ++ progress "pi_lmo4" 400 ++
    progress "pi_lmo5" 600 ++ progress "pi_lmo_parallel1" 600 ++ progress "pi_deleglise_rivat_parallel1" 900)

theorem percents (iters : ℕ) (h : iters ∈ [50, 100, 300, 400, 600, 900]) :
    ∀ i < iters, testPercent i iters = .ok ((100 * (i + 1) / iters : ℕ) : ℤ) := by
  revert iters
  decide +kernel

theorem comparisons (e : SelfTest.Env) (tiny : Vec PhiTiny.Tab) : Says (do
  checkOut e 1 "pi_lmo1" (fun v x => Lmo.piLmo1 v tiny x) (fun _ x => SelfTest.tinySum x) 50
  checkOut e 2 "pi_lmo2" (fun v x => SelfTest.ofI (Lmo.piLmo2 v tiny x)) (fun v x => Lmo.piLmo1 v tiny x) 100
  checkOut e 3 "pi_lmo3" (fun v x => SelfTest.ofI (Lmo.piLmo3 v tiny x)) (fun v x => SelfTest.ofI (Lmo.piLmo2 v tiny x)) 300
  checkOut e 4 "pi_lmo4" (fun v x => SelfTest.ofI (Lmo.piLmo4 v tiny x)) (fun v x => SelfTest.ofI (Lmo.piLmo3 v tiny x)) 400
  checkOut e 5 "pi_lmo5" (fun v x => SelfTest.ofI (Lmo.piLmo5 v tiny x)) (fun v x => SelfTest.ofI (Lmo.piLmo4 v tiny x)) 600
  checkOut e 6 "pi_lmo_parallel1" (fun v x => Lmo.piLmoParallel1 v tiny x e.threads)
    (fun v x => SelfTest.ofI (Lmo.piLmo5 v tiny x)) 600
  checkOut e 7 "pi_deleglise_rivat_parallel1" (fun v x => Pi.pi v tiny x e.threads)
    (fun v x => Lmo.piLmoParallel1 v tiny x e.threads) 900) (do
  SelfTest.check e 1 "pi_lmo1" (fun v x => Lmo.piLmo1 v tiny x) (fun _ x => SelfTest.tinySum x) 50
  SelfTest.check e 2 "pi_lmo2" (fun v x => SelfTest.ofI (Lmo.piLmo2 v tiny x)) (fun v x => Lmo.piLmo1 v tiny x) 100
  SelfTest.check e 3 "pi_lmo3" (fun v x => SelfTest.ofI (Lmo.piLmo3 v tiny x)) (fun v x => SelfTest.ofI (Lmo.piLmo2 v tiny x)) 300
  SelfTest.check e 4 "pi_lmo4" (fun v x => SelfTest.ofI (Lmo.piLmo4 v tiny x)) (fun v x => SelfTest.ofI (Lmo.piLmo3 v tiny x)) 400
  SelfTest.check e 5 "pi_lmo5" (fun v x => SelfTest.ofI (Lmo.piLmo5 v tiny x)) (fun v x => SelfTest.ofI (Lmo.piLmo4 v tiny x)) 600
  SelfTest.check e 6 "pi_lmo_parallel1" (fun v x => Lmo.piLmoParallel1 v tiny x e.threads)
    (fun v x => SelfTest.ofI (Lmo.piLmo5 v tiny x)) 600
  SelfTest.check e 7 "pi_deleglise_rivat_parallel1" (fun v x => Pi.pi v tiny x e.threads)
    (fun v x => Lmo.piLmoParallel1 v tiny x e.threads) 900)
  (progress "pi_lmo1" 50 ++ progress "pi_lmo2" 100 ++ progress "pi_lmo3" 300 ++ progress "pi_lmo4" 400 ++
    progress "pi_lmo5" 600 ++ progress "pi_lmo_parallel1" 600 ++ progress "pi_deleglise_rivat_parallel1" 900) := by
  simp only [List.append_assoc]
  refine Says.bind (checkOut_says _ _ _ _ _ _ (percents 50 (by decide))) (fun _ => ?_)
  refine Says.bind (checkOut_says _ _ _ _ _ _ (percents 100 (by decide))) (fun _ => ?_)
  refine Says.bind (checkOut_says _ _ _ _ _ _ (percents 300 (by decide))) (fun _ => ?_)
  refine Says.bind (checkOut_says _ _ _ _ _ _ (percents 400 (by decide))) (fun _ => ?_)
  refine Says.bind (checkOut_says _ _ _ _ _ _ (percents 600 (by decide))) (fun _ => ?_)
  refine Says.bind (checkOut_says _ _ _ _ _ _ (percents 600 (by decide))) (fun _ => ?_)
  exact checkOut_says _ _ _ _ _ _ (percents 900 (by decide))

theorem bodyOut_says (e : SelfTest.Env) (tiny : Vec PhiTiny.Tab) :
    Says (bodyOut e tiny) (SelfTest.body e tiny) (testText e.omp) := by
  unfold bodyOut SelfTest.body testText
  dsimp only
  rw [← List.nil_append (progress "pi_lmo1" 50)]
  split
  · rw [List.nil_append]
    refine Says.bind (testPhiOut_says e tiny 100) (fun _ => ?_)
    exact comparisons e tiny
  · rw [List.nil_append, List.nil_append]
    exact comparisons e tiny

end PS.Print
