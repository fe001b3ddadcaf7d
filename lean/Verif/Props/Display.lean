import Verif.Props.Output

/-!
# Property C73: what is shown with `--status`

The specification (`heading`, `parameters`, `ending`, `Block`) writes the expected text down literally.  The numbers are those of
`Spec`: `P2Sum`, `S1Sum`, `S2TrivialSum`, `S2EasySum`, `S2HardSum`, `primeSum`.
-/

namespace PS
namespace Print
open Main.Spec
open scoped Nat.Prime

/-! ## The expected text -/

/-- An empty line, the name of the computation and a description. -/
def heading (a b : String) : Text := ['\n'] ++ a.toList ++ ['\n'] ++ b.toList ++ ['\n']

/-- The lines with the parameters.  `z` is `x / y`. -/
def parameters (x y : ℕ) (c : Option ℕ) (alpha : Dbl) (threads : ℤ) : Text :=
  "x = ".toList ++ decimal x ++ "\ny = ".toList ++ decimal y ++ "\nz = ".toList ++ decimal (x / y : ℕ) ++
  (match c with
   | some c => "\nc = ".toList ++ decimal c
   | none => []) ++
  "\nalpha = ".toList ++ fixed 3 alpha ++ "\nthreads = ".toList ++ decimal threads ++ ['\n']

/-- The end of a part: the progress display is overwritten, then come the result and the elapsed time. -/
def ending (name : String) (v : ℤ) (seconds : Dbl) : Text :=
  '\r' :: List.replicate 50 ' ' ++ "\rStatus: 100%\n".toList ++ name.toList ++ " = ".toList ++ decimal v ++
    "\nSeconds: ".toList ++ fixed 3 seconds ++ ['\n']

/-- The text of a part of the formula with the value `v`; `Progress` is what may stand between the parameters and the end. -/
def Block (a b : String) (params : Text) (Progress : Text → Prop) (name : String) (v : ℤ) (seconds : Dbl) (u : Text) : Prop :=
  ∃ p, Progress p ∧ u = heading a b ++ params ++ p ++ ending name v seconds

/-- No progress. -/
def NoProgress (u : Text) : Prop := u = []

/-- Percentages between 0 and 100 that never decrease, with `n` digits after the point. -/
def RisingProgress (n : ℕ) (u : Text) : Prop := ∃ qs : List ℚ, qs.Pairwise (· ≤ ·) ∧ (∀ q ∈ qs, 0 ≤ q ∧ q ≤ 100) ∧
  u = (qs.map (fun q => "\rStatus: ".toList ++ fixed n (.fin q) ++ ['%'])).flatten

/-- Percentages, with `n` digits after the point (C69). -/
def AnyProgress (n : ℕ) (u : Text) : Prop := ∃ qs : List ℚ, (∀ q ∈ qs, -1 / 2 ^ 40 ≤ q ∧ q ≤ 100) ∧
  u = (qs.map (fun q => statusText n (.fin q))).flatten

/-- The texts of the parts, for given parameters. -/
def PartText (o : OutEnv) (opt : Main.Opt) (n : ℕ) (params : Text) (v : ℤ) (u : Text) : Prop :=
  match opt with
  | .P2 => Block "=== P2(x, y) ===" "Computation of the 2nd partial sieve function" params (RisingProgress n) "P2" v (o.seconds "P2") u
  | .S1 => Block "=== S1(x, y) ===" "Computation of the ordinary leaves" params NoProgress "S1_sum" v (o.seconds "S1") u
  | .S2Trivial => Block "=== S2_trivial(x, y) ===" "Computation of the trivial special leaves" params NoProgress "S2_trivial" v
      (o.seconds "S2_trivial") u
  | .S2Easy => Block "=== S2_easy(x, y) ===" "Computation of the easy special leaves" params (AnyProgress n) "S2_easy" v
      (o.seconds "S2_easy") u
  | .S2Hard => Block "=== S2_hard(x, y) ===" "Computation of the hard special leaves" params NoProgress "S2_hard" v
      (o.seconds "S2_hard") u
  | _ => False

/-! ## Proof -/

/-- The text with the printed form of the result instead of its value. -/
def Raw (a b : String) (params : Text) (Progress : Text → Prop) (name : String) (seconds : Dbl) (u : Text) (r : I256) : Prop :=
  ∃ p d, Progress p ∧ I256.print r = .ok d ∧ u = heading a b ++ params ++ p ++ resultText name d seconds

theorem Raw.block {a b name : String} {params : Text} {P Q : Text → Prop} {s : Dbl} {u : Text} {r : I256} {v : ℤ} (h : Raw a b params P name s u r)
    (hPQ : ∀ p, P p → Q p) (hv : r.val = v) (hne : r.val ≠ -2 ^ 255) : Block a b params Q name v s u := by
  obtain ⟨p, d, h1, h2, rfl⟩ := h
  rw [I256.C38_print256_partial r hne, hv] at h2
  obtain rfl := Except.ok.inj h2
  refine ⟨p, hPQ p h1, ?_⟩
  unfold resultText ending secondsText nl
  simp

theorem say_text {f : Flags} (hf : f.print = true) (s : String) : Emits (say f s) (.ok ()) (fun u _ => u = s.toList ++ ['\n']) := by
  unfold say
  rw [if_pos hf]
  exact Emits.emit _

theorem sayTitle_text {f : Flags} (hf : f.print = true) (a b : String) :
    Emits (sayTitle f a b) (.ok ()) (fun u _ => u = heading a b) := by
  unfold sayTitle
  refine ((say_text hf "").seq ((say_text hf a).seq (say_text hf b))).mono ?_
  rintro u _ - ⟨v, v', h1, ⟨w, w', h2, h3, h4⟩, h5⟩
  rw [h5, h4, h1, h2, h3]
  unfold heading
  simp

theorem num_nat (n : ℕ) : num n = decimal n := natText n

theorem num_pos {t : ℤ} (h : 0 ≤ t) : num t = decimal t := by
  obtain ⟨n, rfl⟩ := Int.eq_ofNat_of_zero_le h
  exact num_nat n

theorem sayAll_text {f : Flags} (hf : f.print = true) (x y c : ℕ) (alpha : Dbl) {threads : ℤ} (hx : x < 2 ^ 127) (ht : 0 ≤ threads) :
    Emits (sayAll f x y (x / y) c alpha threads) (.ok ()) (fun u _ => u = parameters x y (some c) alpha threads) := by
  unfold sayAll
  rw [if_pos hf, printS_total hx]
  refine Emits.liftBind (m := .ok _) (g := fun _ => .ok ()) (fun a ha => ?_)
  obtain rfl := Except.ok.inj ha
  refine (Emits.emit _).mono (fun u _ _ hu => ?_)
  rw [hu, num_nat, num_nat, num_nat, num_pos ht]
  unfold parameters nl
  simp

/-- The parameters that a part shows. -/
def vars (f : Flags) (x y : ℕ) (c : Option ℕ) (threads : ℤ) : Text :=
  if f.vars then parameters x y c (Dbl.round ((y : ℚ) / (iroot 3 x : ℕ))) threads ++ ['\n'] else []

theorem alphaOfY_eq {x y : ℕ} (h1 : 1 ≤ x) (hx : x < 2 ^ 127) (hy : y ≤ 2 ^ 53) :
    alphaOfY x y = .ok (Dbl.round ((y : ℚ) / (iroot 3 x : ℕ))) := by
  have h3 : 1 ≤ iroot 3 x := le_iroot (by norm_num) (by simpa using h1)
  have h4 : iroot 3 x ≤ 2 ^ 53 := by
    have h5 := iroot_le 3 x (by norm_num)
    by_contra hc
    push Not at hc
    have : (2 ^ 53) ^ 3 < iroot 3 x ^ 3 := Nat.pow_lt_pow_left hc (by norm_num)
    omega
  unfold alphaOfY
  rw [Dbl.ofInt_nat y hy, Dbl.ofInt_nat _ h4]
  exact if_neg (by exact_mod_cast (by omega : iroot 3 x ≠ 0))

theorem sayVariables_text (f : Flags) {x y : ℕ} (c : Option ℕ) {threads : ℤ} (h1 : 1 ≤ x) (hx : x < 2 ^ 127) (hy1 : 1 ≤ y) (hy : y ≤ 2 ^ 53)
    (ht : 0 ≤ threads) : Emits (sayVariables f x y c threads) (.ok ()) (fun u _ => u = vars f x y c threads) := by
  unfold sayVariables vars
  split
  · rw [cdiv_ok (by omega), alphaOfY_eq h1 hx hy, printS_total hx]
    have hz2 := Nat.div_le_self x y
    refine Emits.liftBind (m := .ok _) (g := fun _ => .ok ()) (fun a ha => ?_)
    obtain rfl := Except.ok.inj ha
    refine Emits.liftBind (m := .ok _) (g := fun _ => .ok ()) (fun a ha => ?_)
    obtain rfl := Except.ok.inj ha
    rw [printS_total (n := x / y) (by omega)]
    refine Emits.liftBind (m := .ok _) (g := fun _ => .ok ()) (fun a ha => ?_)
    obtain rfl := Except.ok.inj ha
    refine Emits.liftBind (m := .ok _) (g := fun _ => .ok ()) (fun a ha => ?_)
    obtain rfl := Except.ok.inj ha
    refine (Emits.emit _).mono (fun u _ _ hu => ?_)
    rw [hu, num_nat, num_pos ht]
    unfold parameters nl
    cases c <;> simp [num_nat]
  · exact (Emits.pure ()).mono (fun u _ _ hu => hu.1)

theorem result_text {f : Flags} (hf : f.print = true) (name : String) (r : I256) (s : Dbl) :
    Emits (sayResult f name r s >>= fun _ => Pure.pure r) (.ok r) (fun u b => ∃ d, I256.print b = .ok d ∧ u = resultText name d s) := by
  refine (Emits.ret (sayResult_ok f name r s)).mono ?_
  rintro u b - ⟨⟨-, h2⟩, rfl⟩
  exact h2 hf

/-- What the display of the parameters needs. -/
structure Nums (x y : ℕ) (threads : ℤ) : Prop where
  x1 : 1 ≤ x
  x127 : x < 2 ^ 127
  y1 : 1 ≤ y
  y53 : y ≤ 2 ^ 53
  t0 : 0 ≤ threads

theorem head_text {f : Flags} (hf : f.print = true) {a b : String} {x y : ℕ} {c : Option ℕ} {threads : ℤ} (hn : Nums x y threads) {w : W I256} {m : M I256}
    {name : String} {s : Dbl} {P : Text → Prop} (h : Emits w m (fun u r => ∃ p d, P p ∧ I256.print r = .ok d ∧ u = p ++ resultText name d s)) :
    Emits (sayTitle f a b >>= fun _ => sayVariables f x y c threads >>= fun _ => w) m (Raw a b (vars f x y c threads) P name s) := by
  refine ((sayTitle_text hf a b).seq ((sayVariables_text f c hn.x1 hn.x127 hn.y1 hn.y53 hn.t0).seq h)).mono ?_
  rintro u r - ⟨v, v', rfl, ⟨w, w', rfl, ⟨p, d, h1, h2, rfl⟩, rfl⟩, rfl⟩
  exact ⟨p, d, h1, h2, by simp⟩

theorem bind_ok (m : M I256) : (m >>= fun r => (.ok r : M I256)) = m := by cases m <;> rfl

theorem plain_text {f : Flags} (hf : f.print = true) {a b : String} {x y : ℕ} {c : Option ℕ} {threads : ℤ} (hn : Nums x y threads) (m : M I256)
    (name : String) (s : Dbl) :
    Emits (sayTitle f a b >>= fun _ => sayVariables f x y c threads >>= fun _ => (liftM m : W I256) >>= fun r =>
      sayResult f name r s >>= fun _ => Pure.pure r) m (Raw a b (vars f x y c threads) NoProgress name s) := by
  refine head_text hf hn ?_
  have h := Emits.liftBind (m := m) (f := fun r => sayResult f name r s >>= fun _ => Pure.pure r) (g := fun r => .ok r)
    (fun r _ => result_text hf name r s)
  rw [bind_ok] at h
  refine h.mono ?_
  rintro u r - ⟨d, h1, h2⟩
  exact ⟨[], d, rfl, h1, h2⟩

theorem p2Out_text {f : Flags} (hf : f.print = true) (o : OutEnv) (tiny : Vec PhiTiny.Tab) (sched : Scheduler) (time : ℕ → Ordering) {threads : ℤ}
    {x y : ℕ} (hn : Nums x y threads) :
    Emits (p2Out f o tiny sched time threads x y) (P2.p2 tiny sched time threads x y)
      (Raw "=== P2(x, y) ===" "Computation of the 2nd partial sieve function" (vars f x y none threads)
        (RisingProgress (Main.getStatusPrecision f.set x).toNat) "P2" (o.seconds "P2")) := by
  refine head_text hf hn ?_
  have key : Writes (if x ≤ 2 ^ 63 - 1 then do
      let r ← masterOut W128 f tiny sched time threads x y
      pure (Res.toI256 r.1, r.2)
    else do
      let r ← masterOut I256 f tiny sched time threads x y
      pure (Res.toI256 r.1, r.2) : M (I256 × Text)) (P2.p2 tiny sched time threads x y)
      (P2Writes f (Main.getStatusPrecision f.set x).toNat) := by
    unfold P2.p2
    split
    · exact (master_ok f tiny sched time threads x y).map _
    · exact (master_ok f tiny sched time threads x y).map _
  have h := key.emits (g := fun r => sayResult f "P2" r (o.seconds "P2") >>= fun _ => Pure.pure r) (m' := fun r => .ok r)
    (fun r _ => result_text hf "P2" r (o.seconds "P2"))
  rw [bind_ok] at h
  refine h.mono ?_
  rintro u r - ⟨a, v, v', h1, ⟨d, h2, h3⟩, rfl⟩
  unfold P2Writes at h1
  rw [if_pos hf] at h1
  obtain ⟨qs, h4, h5⟩ := h1
  exact ⟨v, d, ⟨qs, h4.1, h4.2, h5⟩, h2, by rw [h3]⟩

theorem s2EasyOut_text {f : Flags} (hf : f.print = true) (o : OutEnv) {e : Pi.Env} (hs : e.schedEasy.Valid) (hl : Skew e.lib) {x y : ℕ} (z c : ℕ)
    {threads : ℤ} (hn : Nums x y threads) :
    Emits (s2EasyOut f o e x y z c threads) (Pi.s2Easy e x y z c)
      (Raw "=== S2_easy(x, y) ===" "Computation of the easy special leaves" (vars f x y (some c) threads)
        (AnyProgress (Main.getStatusPrecision f.set x).toNat) "S2_easy" (o.seconds "S2_easy")) := by
  refine head_text hf hn ?_
  have h := Emits.liftBind (m := Pi.s2Easy e x y z c) (f := fun r => (liftM (easyText f o e.lib e.schedEasy x y c) : W Text) >>= fun t =>
    emit t >>= fun _ => sayResult f "S2_easy" r (o.seconds "S2_easy") >>= fun _ => Pure.pure r) (g := fun r => .ok r)
    (Q := fun u r => ∃ p d, AnyProgress (Main.getStatusPrecision f.set x).toNat p ∧ I256.print r = .ok d ∧
      u = p ++ resultText "S2_easy" d (o.seconds "S2_easy")) (fun r hr => by
      obtain ⟨q, hq⟩ := s2Easy_calls hr
      obtain ⟨u, h1, -, h3⟩ := easyText_ok (f := f) o hs hn.x127 (fun _ => hl) hq
      obtain ⟨ps, h4, h5⟩ := h3 hf
      rw [h1]
      refine Emits.liftBind (m := .ok u) (g := fun _ => .ok r) (fun t ht => ?_)
      obtain rfl := Except.ok.inj ht
      refine ((Emits.emit u).seq (P := fun v => v = u) (result_text hf "S2_easy" r (o.seconds "S2_easy"))).mono ?_
      rintro v b - ⟨w, w', rfl, ⟨d, h6, h7⟩, rfl⟩
      refine ⟨w, d, ?_, h6, by rw [h7]⟩
      refine ⟨ps.map Pi.toQ, ?_, ?_⟩
      · intro q hq
        obtain ⟨p, hp, rfl⟩ := List.mem_map.1 hq
        obtain ⟨q, rfl, h8⟩ := h5 p hp
        exact h8
      · rw [h4, List.map_map]
        unfold statusTexts
        congr 1
        refine List.map_congr_left (fun p hp => ?_)
        obtain ⟨q, rfl, -⟩ := h5 p hp
        rfl)
  rwa [bind_ok] at h

theorem s1Out_text {f : Flags} (hf : f.print = true) (o : OutEnv) (sched : Scheduler) {x y : ℕ} (c : ℕ) {threads : ℤ} (hn : Nums x y threads) :
    Emits (s1Out f o sched x y c threads) (PS.s1 sched x y c) (Raw "=== S1(x, y) ===" "Computation of the ordinary leaves"
      (vars f x y (some c) threads) NoProgress "S1_sum" (o.seconds "S1")) := plain_text hf hn _ _ _

theorem s2TrivialOut_text {f : Flags} (hf : f.print = true) (o : OutEnv) (sched : Scheduler) {x y : ℕ} (z c : ℕ) {threads : ℤ}
    (hn : Nums x y threads) :
    Emits (s2TrivialOut f o sched x y z c threads) (S2Trivial.s2Trivial sched x y z c threads)
      (Raw "=== S2_trivial(x, y) ===" "Computation of the trivial special leaves"
      (vars f x y (some c) threads) NoProgress "S2_trivial" (o.seconds "S2_trivial")) := plain_text hf hn _ _ _

theorem s2HardOut_text {f : Flags} (hf : f.print = true) (o : OutEnv) (e : S2Hard.Env) {x y : ℕ} (z c : ℕ) {threads : ℤ}
    (hn : Nums x y threads) :
    Emits (s2HardOut f o e x y z c threads) (S2Hard.s2Hard e x y z c threads)
      (Raw "=== S2_hard(x, y) ===" "Computation of the hard special leaves"
      (vars f x y (some c) threads) NoProgress "S2_hard" (o.seconds "S2_hard")) := plain_text hf hn _ _ _

/-- What `pi(x)` writes. -/
def PiText (f : Flags) (o : OutEnv) (e : Pi.Env) (tiny : Vec PhiTiny.Tab) (x y c : ℕ) (alpha : Dbl) (threads : ℤ) (u : Text) : Prop :=
  ∃ u1 u2 u3 u4 u5 r1 r2 r3 r4 r5,
    P2.p2 tiny e.schedP2 e.timeP2 threads x y = .ok r1 ∧
    PS.s1 e.schedS1 x y c = .ok r2 ∧
    S2Trivial.s2Trivial e.schedTrivial x y (x / y) c threads = .ok r3 ∧
    Pi.s2Easy e x y (x / y) c = .ok r4 ∧
    S2Hard.s2Hard e.hard x y (x / y) c threads = .ok r5 ∧
    Raw "=== P2(x, y) ===" "Computation of the 2nd partial sieve function" [] (RisingProgress (Main.getStatusPrecision f.set x).toNat)
      "P2" (o.seconds "P2") u1 r1 ∧
    Raw "=== S1(x, y) ===" "Computation of the ordinary leaves" [] NoProgress "S1_sum" (o.seconds "S1") u2 r2 ∧
    Raw "=== S2_trivial(x, y) ===" "Computation of the trivial special leaves" [] NoProgress "S2_trivial" (o.seconds "S2_trivial") u3 r3 ∧
    Raw "=== S2_easy(x, y) ===" "Computation of the easy special leaves" [] (AnyProgress (Main.getStatusPrecision f.set x).toNat)
      "S2_easy" (o.seconds "S2_easy") u4 r4 ∧
    Raw "=== S2_hard(x, y) ===" "Computation of the hard special leaves" [] NoProgress "S2_hard" (o.seconds "S2_hard") u5 r5 ∧
    u = heading "=== pi_deleglise_rivat_parallel1(x) ===" "pi(x) = S1 + S2 + pi(y) - 1 - P2" ++
      parameters x y (some c) alpha threads ++ (u1 ++ (u2 ++ (u3 ++ (u4 ++ u5))))

theorem body_text {f : Flags} (hf : f.print = true) (hv : f.vars = false) (o : OutEnv) {e : Pi.Env} (he : CanPrint f e)
    (tiny : Vec PhiTiny.Tab) {x y : ℕ} (c : ℕ) (alpha : Dbl) {threads : ℤ} (hn : Nums x y threads) (fin : I256 → I256 → I256 → I256 → I256 → W I256)
    (fin' : I256 → I256 → I256 → I256 → I256 → M I256)
    (hfin : ∀ r1 r2 r3 r4 r5, Emits (fin r1 r2 r3 r4 r5) (fin' r1 r2 r3 r4 r5) (fun u _ => u = [])) :
    Emits (do
      sayTitle f "=== pi_deleglise_rivat_parallel1(x) ===" "pi(x) = S1 + S2 + pi(y) - 1 - P2"
      sayAll f x y (x / y) c alpha threads
      let p2 ← p2Out f o tiny e.schedP2 e.timeP2 threads x y
      let s1 ← s1Out f o e.schedS1 x y c threads
      let s2Trivial ← s2TrivialOut f o e.schedTrivial x y (x / y) c threads
      let s2Easy ← s2EasyOut f o e x y (x / y) c threads
      let s2Hard ← s2HardOut f o e.hard x y (x / y) c threads
      fin p2 s1 s2Trivial s2Easy s2Hard) (do
      let p2 ← P2.p2 tiny e.schedP2 e.timeP2 threads x y
      let s1 ← PS.s1 e.schedS1 x y c
      let s2Trivial ← S2Trivial.s2Trivial e.schedTrivial x y (x / y) c threads
      let s2Easy ← Pi.s2Easy e x y (x / y) c
      let s2Hard ← S2Hard.s2Hard e.hard x y (x / y) c threads
      fin' p2 s1 s2Trivial s2Easy s2Hard) (fun u _ => PiText f o e tiny x y c alpha threads u) := by
  have hvars : ∀ c, vars f x y c threads = [] := fun c => by unfold vars; rw [hv]; rfl
  have k1 := p2Out_text hf o tiny e.schedP2 e.timeP2 hn
  have k2 := s1Out_text hf o e.schedS1 c hn
  have k3 := s2TrivialOut_text hf o e.schedTrivial (x / y) c hn
  have k4 := s2EasyOut_text hf o he.sched (he.skew hf) (x / y) c hn
  have k5 := s2HardOut_text hf o e.hard (x / y) c hn
  rw [hvars] at k1 k2 k3 k4 k5
  refine ((sayTitle_text hf _ _).seq ((sayAll_text hf x y c alpha hn.x127 hn.t0).seq
    (k1.bind (fun r1 _ => k2.bind (fun r2 _ => k3.bind (fun r3 _ => k4.bind (fun r4 _ => k5.bind (fun r5 _ =>
      hfin r1 r2 r3 r4 r5)))))))).mono ?_
  rintro u r - ⟨v, v', rfl, ⟨w, w', rfl, ⟨r1, u1, w1, e1, -, g1, ⟨r2, u2, w2, e2, -, g2, ⟨r3, u3, w3, e3, -, g3, ⟨r4, u4, w4, e4, -, g4,
    ⟨r5, u5, w5, e5, -, g5, rfl, rfl⟩, rfl⟩, rfl⟩, rfl⟩, rfl⟩, rfl⟩, rfl⟩
  exact ⟨u1, u2, u3, u4, u5, r1, r2, r3, r4, r5, e1, e2, e3, e4, e5, g1, g2, g3, g4, g5, by rw [List.append_nil, List.append_assoc]⟩

theorem nums {e : Pi.Env} (hf : e.FP) {x : ℕ} {threads : ℤ} (ht : 1 ≤ threads) (h1 : 1 ≤ x) (hx : x < 2 ^ 106) :
    Nums x (e.y x) threads := by
  obtain ⟨y1, y2, -⟩ := Pi.y_facts hf h1 hx
  exact ⟨h1, by omega, y1, by nlinarith, by omega⟩

theorem piOut_text {f : Flags} (hf : f.print = true) (hv : f.vars = false) (o : OutEnv) {e : Pi.Env} (he : CanPrint f e)
    (tiny : Vec PhiTiny.Tab) {x : ℕ} (h2 : 2 ≤ x) (hx : x < 2 ^ 106) (hlim : x ≤ e.limit x) {threads : ℤ} (ht : 1 ≤ threads) :
    Emits (piOut f o e tiny x threads) (Pi.pi e tiny x threads)
      (fun u _ => PiText f o e tiny x (e.y x) (min 6 (π (e.y x))) (e.alphaD x) threads u) := by
  have hn := nums he.fp ht (by omega : 1 ≤ x) hx
  unfold piOut Pi.pi
  rw [if_neg (by omega), if_neg (by omega)]
  dsimp only
  rw [Int.toNat_natCast]
  refine Emits.liftBind (fun a ha => ?_)
  rw [Pi.getAlpha_eq] at ha
  obtain rfl := Except.ok.inj ha
  refine Emits.liftBind (fun l hl => ?_)
  rw [(Pi.limit_ok he.fp (by omega) (by omega)).1] at hl
  obtain rfl := Except.ok.inj hl
  rw [if_neg (by omega), if_neg (by omega)]
  refine Emits.liftBind (fun a ha => ?_)
  rw [irootM_eq 3 _ _ (by norm_num)] at ha
  obtain rfl := Except.ok.inj ha
  refine Emits.liftBind (fun y hy => ?_)
  rw [Pi.y_eq he.fp (by omega) hx] at hy
  obtain rfl := Except.ok.inj hy
  generalize e.y x = y at *
  generalize e.alphaD x = alpha at *
  refine Emits.liftBind (fun z hz => ?_)
  rw [cdiv_ok (by have := hn.y1; omega)] at hz
  obtain rfl := Except.ok.inj hz
  refine Emits.liftBind (fun c hc => ?_)
  rw [PhiTiny.getC_ok] at hc
  obtain rfl := Except.ok.inj hc
  unfold Pi.s2
  simp only [bind_assoc, pure_bind]
  exact body_text hf hv o he tiny (min 6 (π y)) alpha hn
    (fun p2 s1 s2Trivial s2Easy s2Hard => do
      let t ← P2.primeSumTiny y
      pure (I256.sub (I256.sub (I256.add (I256.add s1 (I256.add (I256.add s2Trivial s2Easy) s2Hard)) (I256.ofInt t)) (I256.ofInt 1)) p2))
    (fun p2 s1 s2Trivial s2Easy s2Hard => do
      let t ← P2.primeSumTiny y
      pure (I256.sub (I256.sub (I256.add (I256.add s1 (I256.add (I256.add s2Trivial s2Easy) s2Hard)) (I256.ofInt t)) (I256.ofInt 1)) p2))
    (fun p2 s1 s2Trivial s2Easy s2Hard => Emits.liftBind (fun t _ => (Emits.pure _).mono (fun u _ _ h => h.1)))

theorem partOut_text {f : Flags} (hf : f.print = true) {name : String} {e : Pi.Env} (hfp : e.FP) {x : ℕ} (h1 : 1 ≤ x) (hx : x < 2 ^ 106)
    (hlim : x ≤ e.limit x) {g : Flags → ℕ → ℕ → ℕ → ℕ → W I256} {m : ℕ → ℕ → ℕ → ℕ → M I256} {P : Text → I256 → Prop}
    (h : Emits (g ⟨true, true, f.set⟩ x (e.y x) (x / e.y x) (min 6 (π (e.y x)))) (m x (e.y x) (x / e.y x) (min 6 (π (e.y x)))) P) :
    Emits (partOut name f e x g) (Main.part name e x m >>= fun r => Pure.pure (r, ⟨true, true, f.set⟩)) (fun u r => P u r.1 ∧ r.2.vars = true) := by
  obtain ⟨y1, -, -⟩ := Pi.y_facts hfp h1 hx
  unfold partOut Main.part
  have h0 : ¬ ((x : ℤ) < 1) := by omega
  simp only [if_neg h0]
  rw [Int.toNat_natCast]
  simp only [bind_assoc]
  refine Emits.liftBind (fun a ha => ?_)
  rw [Pi.getAlpha_eq] at ha
  obtain rfl := Except.ok.inj ha
  refine Emits.liftBind (fun l hl => ?_)
  rw [(Pi.limit_ok hfp (by omega) (by omega)).1] at hl
  obtain rfl := Except.ok.inj hl
  have hg : ¬ ((x : ℤ) > (e.limit x : ℤ)) := by omega
  simp only [if_neg hg, bind_assoc]
  refine Emits.liftBind (fun a ha => ?_)
  rw [irootM_eq 3 _ _ (by norm_num)] at ha
  obtain rfl := Except.ok.inj ha
  refine Emits.liftBind (fun y hy => ?_)
  rw [Pi.y_eq hfp (by omega) hx] at hy
  obtain rfl := Except.ok.inj hy
  generalize e.y x = y at *
  refine Emits.liftBind (fun z hz => ?_)
  rw [cdiv_ok (by omega)] at hz
  obtain rfl := Except.ok.inj hz
  refine Emits.liftBind (fun c hc => ?_)
  rw [PhiTiny.getC_ok] at hc
  obtain rfl := Except.ok.inj hc
  rw [if_pos hf]
  have e1 : ({ f with vars := true } : Flags) = ⟨true, true, f.set⟩ := by rw [← hf]
  rw [e1]
  refine (h.bind (fun a _ => Emits.pure (a, (⟨true, true, f.set⟩ : Flags)))).mono ?_
  rintro u r - ⟨a, v, v', -, -, h2, ⟨rfl, rfl⟩, rfl⟩
  rw [List.append_nil]
  exact ⟨h2, rfl⟩

/-- the parameter lines of `P2` have no `c`. -/
def partC (opt : Main.Opt) (c : ℕ) : Option ℕ := if opt = .P2 then none else some c

/-- What a part writes. -/
theorem runOut_part {f : Flags} (hf : f.print = true) (o : OutEnv) {e : Pi.Env} (he : CanPrint f e) (tiny : Vec PhiTiny.Tab) {opt : Main.Opt} {name : String}
    (hl : Main.label opt = some name) {x : ℕ} (h1 : 1 ≤ x) (hx : x < 2 ^ 106) (hlim : x ≤ e.limit x) {threads : ℤ} (ht : 1 ≤ threads) :
    Emits (runOut f o e tiny opt x threads) (Main.run e tiny opt x threads >>= fun r => Pure.pure (r, ⟨true, true, f.set⟩))
      (fun u r => r.2.vars = true ∧ (∀ v : ℤ, r.1.val = v → v ≠ -2 ^ 255 → PartText o opt (Main.getStatusPrecision f.set x).toNat
        (parameters x (e.y x) (partC opt (min 6 (π (e.y x)))) (Dbl.round ((e.y x : ℚ) / (iroot 3 x : ℕ))) threads ++ ['\n']) v u)) := by
  have hn := nums he.fp ht h1 hx
  have hv : ∀ c, vars ⟨true, true, f.set⟩ x (e.y x) c threads =
      parameters x (e.y x) c (Dbl.round ((e.y x : ℚ) / (iroot 3 x : ℕ))) threads ++ ['\n'] := fun c => rfl
  cases opt <;> (try (simp [Main.label] at hl; done))
  case P2 =>
    have k := p2Out_text (f := ⟨true, true, f.set⟩) rfl o tiny e.schedP2 e.timeP2 hn
    rw [hv] at k
    refine (partOut_text (g := fun f x y _ _ => p2Out f o tiny e.schedP2 e.timeP2 threads x y)
      (m := fun x y _ _ => P2.p2 tiny e.schedP2 e.timeP2 threads x y) hf he.fp h1 hx hlim k).mono (fun u r _ h => ⟨h.2, fun v h3 h4 => ?_⟩)
    exact h.1.block (fun _ h => h) h3 (by rw [h3]; exact h4)
  case S1 =>
    have k := s1Out_text (f := ⟨true, true, f.set⟩) rfl o e.schedS1 (min 6 (π (e.y x))) hn
    rw [hv] at k
    refine (partOut_text (g := fun f x y _ c => s1Out f o e.schedS1 x y c threads)
      (m := fun x y _ c => PS.s1 e.schedS1 x y c) hf he.fp h1 hx hlim k).mono (fun u r _ h => ⟨h.2, fun v h3 h4 => ?_⟩)
    exact h.1.block (fun _ h => h) h3 (by rw [h3]; exact h4)
  case S2Trivial =>
    have k := s2TrivialOut_text (f := ⟨true, true, f.set⟩) rfl o e.schedTrivial (x / e.y x) (min 6 (π (e.y x))) hn
    rw [hv] at k
    refine (partOut_text (g := fun f x y z c => s2TrivialOut f o e.schedTrivial x y z c threads)
      (m := fun x y z c => S2Trivial.s2Trivial e.schedTrivial x y z c threads) hf he.fp h1 hx hlim k).mono (fun u r _ h => ⟨h.2, fun v h3 h4 => ?_⟩)
    exact h.1.block (fun _ h => h) h3 (by rw [h3]; exact h4)
  case S2Easy =>
    have k := s2EasyOut_text (f := ⟨true, true, f.set⟩) rfl o he.sched (he.skew hf) (x / e.y x) (min 6 (π (e.y x))) hn
    rw [hv] at k
    refine (partOut_text (g := fun f x y z c => s2EasyOut f o e x y z c threads)
      (m := fun x y z c => Pi.s2Easy e x y z c) hf he.fp h1 hx hlim k).mono (fun u r _ h => ⟨h.2, fun v h3 h4 => ?_⟩)
    exact h.1.block (fun _ h => h) h3 (by rw [h3]; exact h4)
  case S2Hard =>
    have k := s2HardOut_text (f := ⟨true, true, f.set⟩) rfl o e.hard (x / e.y x) (min 6 (π (e.y x))) hn
    rw [hv] at k
    refine (partOut_text (g := fun f x y z c => s2HardOut f o e.hard x y z c threads)
      (m := fun x y z c => S2Hard.s2Hard e.hard x y z c threads) hf he.fp h1 hx hlim k).mono (fun u r _ h => ⟨h.2, fun v h3 h4 => ?_⟩)
    exact h.1.block (fun _ h => h) h3 (by rw [h3]; exact h4)

/-! ## C73 -/

/-- A part of the formula with `--status`: the standard output stream consists of the heading, the parameters, the progress, the value
of the part and the elapsed time.  `alpha` is `y / iroot<3>(x)`.  Missing: see C54. -/
theorem C73_part_partial (e : Main.Env) (o : OutEnv) (args : List (List Char)) (pco : Main.Options) (set : Main.Settings) (x : ℕ) (name : String)
    (h : Accepted e args pco set) (homp : 1 ≤ e.ompMax) (hl : Main.label pco.option = some name) (hx : pco.x = x)
    (hs : ∃ a ∈ args, ∃ v, Names a .status v)
    (hv : (Main.algEnv e set pco.option).Valid) (hsk : Skew (Main.algEnv e set pco.option).lib) (hx1 : 1 ≤ x)
    (hlt : x < 2 ^ 103) (hlim : x ≤ (Main.algEnv e set pco.option).limit x)
    (hz : pco.option = .S2Hard → x / (Main.algEnv e set pco.option).y x + 129 < 2 ^ 59)
    (hw : pco.option = .S1 → x < 52175271301331128848 ∨ NoWindow x 6) (y c : ℕ) (hy : y = (Main.algEnv e set pco.option).y x)
    (hc : c = min 6 (π y)) :
    ∃ t, PartText o pco.option (Main.getStatusPrecision set x).toNat
        (parameters x y (partC pco.option c) (Dbl.round ((y : ℚ) / (iroot 3 x : ℕ))) (getNumThreads e.ompMax set.threads) ++ ['\n'])
        (Main.partValue pco.option x y c) t ∧
      mainOut e o args = .ok (.ok ⟨t, [], 0⟩) := by
  have hp : set.print = true := h.print.2 hs
  subst hy hc
  obtain ⟨tiny, h1, ht⟩ := PhiTiny.build_ok
  have hth := Main.threads_pos h homp
  obtain ⟨r, h2, h3⟩ := Main.part_run (tiny := tiny) ht hv hth hx1 hlt hlim hz hw hl
  obtain ⟨-, y2, -⟩ := Pi.y_facts hv.fp hx1 (by omega)
  have k := runOut_part (f := ⟨set.print, false, set⟩) hp o ⟨hv.schedEasy, hv.fp, fun _ => hsk⟩ tiny hl hx1 (by omega) hlim hth
  rw [h2, ok_bind] at k
  obtain ⟨u, ⟨-, h5⟩, h6⟩ := k
  refine ⟨u, h5 _ h3 (Main.part_ne _ hlt y2), ?_⟩
  unfold mainOut
  rw [h1, ok_bind, (Main.C41_starts e args pco set).2 h, ok_bind]
  dsimp only
  rw [hx, h6 []]
  rfl

theorem part_eq {name : String} {e : Pi.Env} {x : ℕ} {f : ℕ → ℕ → ℕ → ℕ → M I256} (hfp : e.FP)
    (hx1 : 1 ≤ x) (hx : x < 2 ^ 103) (hlim : x ≤ e.limit x) :
    Main.part name e x f = f x (e.y x) (x / e.y x) (min 6 (π (e.y x))) := by
  obtain ⟨h1, h2, h3⟩ := Pi.y_facts hfp hx1 (by omega)
  unfold Main.part
  rw [if_neg (by omega)]
  dsimp only
  rw [Int.toNat_natCast, Pi.getAlpha_eq, ok_bind, (Pi.limit_ok hfp hx1 (by omega)).1, ok_bind, if_neg (by omega),
    irootM_eq 3 _ _ (by norm_num), ok_bind, Pi.y_eq hfp hx1 (by omega), ok_bind]
  rw [cdiv_ok (by omega), ok_bind, PhiTiny.getC_ok, ok_bind]

/-- `primesum x --status`: the standard output stream consists of the heading, the parameters, the five parts of the formula with their
values, the sum of the primes `≤ x` and the elapsed time.  By `C54_formula` the numbers fit together:
`pi(x) = S1 + S2 + pi(y) - 1 - P2`, where `S2` is the sum of the other three.  Missing: see C01. -/
theorem C73_pi_partial (e : Main.Env) (o : OutEnv) (args : List (List Char)) (pco : Main.Options) (set : Main.Settings) (x : ℕ)
    (h : Accepted e args pco set) (homp : 1 ≤ e.ompMax) (ho : Main.IsPi pco.option) (hx : pco.x = x)
    (hs : ∃ a ∈ args, ∃ v, Names a .status v)
    (hv : (Main.algEnv e set pco.option).Valid) (hsk : Skew (Main.algEnv e set pco.option).lib) (h2 : 2 ≤ x)
    (hb : (Main.algEnv e set pco.option).Reach x) (hw : x < 52175271301331128848 ∨ NoWindow x 6)
    (y c n : ℕ) (hy : y = (Main.algEnv e set pco.option).y x) (hc : c = min 6 (π y)) (hn : n = (Main.getStatusPrecision set x).toNat) :
    ∃ t1 t2 t3 t4 t5,
      PartText o .P2 n [] (P2Sum x y) t1 ∧ PartText o .S1 n [] (S1Sum x y c) t2 ∧ PartText o .S2Trivial n [] (S2TrivialSum x y c) t3 ∧
      PartText o .S2Easy n [] (S2EasySum x y c) t4 ∧ PartText o .S2Hard n [] (S2HardSum x y c) t5 ∧
      mainOut e o args = .ok (.ok ⟨heading "=== pi_deleglise_rivat_parallel1(x) ===" "pi(x) = S1 + S2 + pi(y) - 1 - P2" ++
        parameters x y (some c) ((Main.algEnv e set pco.option).alphaD x) (getNumThreads e.ompMax set.threads) ++
        t1 ++ t2 ++ t3 ++ t4 ++ t5 ++ ['\n'] ++ decimal (primeSum x) ++ "\nSeconds: ".toList ++ fixed 3 (o.seconds "main") ++ ['\n'], [], 0⟩) := by
  have hp : set.print = true := h.print.2 hs
  have htm : pco.time = true := by
    rw [h.time]
    obtain ⟨a, ha, v, hav⟩ := hs
    exact ⟨a, ha, v, Or.inr hav⟩
  subst hy hc hn
  have hlt := hb.lt
  obtain ⟨tiny, h1, ht⟩ := PhiTiny.build_ok
  have hth := Main.threads_pos h homp
  have hlim := hb.limit hv.fp (by omega)
  obtain ⟨y1, y2, -⟩ := Pi.y_facts hv.fp (by omega : 1 ≤ x) (by omega)
  obtain ⟨r, h3, h4⟩ := C01_pi_reach_partial _ x _ hv hth hb hw
  change (do let tiny ← PhiTiny.build; Pi.pi _ tiny x _) = _ at h3
  rw [h1, ok_bind] at h3
  have k := piOut_text (f := ⟨set.print, false, set⟩) hp rfl o ⟨hv.schedEasy, hv.fp, fun _ => hsk⟩ tiny h2 (by omega) hlim hth
  have val : ∀ {opt : Main.Opt} {name : String}, Main.label opt = some name →
      Ok (Main.run (Main.algEnv e set pco.option) tiny opt x (getNumThreads e.ompMax set.threads)) (fun r => r.val = Main.partValue opt x
        ((Main.algEnv e set pco.option).y x) (min 6 (π ((Main.algEnv e set pco.option).y x))) ∧ r.val ≠ -2 ^ 255) := fun {opt _} hl =>
    (Main.part_run ht hv hth (by omega) (by omega) hlim (fun _ => hb.z hv.fp (by omega)) (fun _ => hw) hl).mono
      (fun r hr => ⟨hr, by rw [hr]; exact Main.part_ne opt (by omega) y2⟩)
  rw [h3] at k
  obtain ⟨u, ⟨u1, u2, u3, u4, u5, r1, r2, r3, r4, r5, e1, e2, e3, e4, e5, g1, g2, g3, g4, g5, hu⟩, hk⟩ := k
  have pe := fun name f => part_eq (name := name) (f := f) hv.fp (by omega : 1 ≤ x) (by omega) hlim
  have run_val : ∀ {m : M I256} {r : I256} {P : I256 → Prop}, m = .ok r → Ok m P → P r := by
    rintro m r P rfl ⟨a, h, h'⟩
    obtain rfl := Except.ok.inj h
    exact h'
  have v1 := run_val e1 (by
    have := val (opt := .P2) rfl
    unfold Main.run at this
    dsimp only at this
    unfold Main.mainP2 at this
    rwa [pe] at this)
  have v2 := run_val e2 (by
    have := val (opt := .S1) rfl
    unfold Main.run at this
    dsimp only at this
    unfold Main.mainS1 at this
    rwa [pe] at this)
  have v3 := run_val e3 (by
    have := val (opt := .S2Trivial) rfl
    unfold Main.run at this
    dsimp only at this
    unfold Main.mainS2Trivial at this
    rwa [pe] at this)
  have v4 := run_val e4 (by
    have := val (opt := .S2Easy) rfl
    unfold Main.run at this
    dsimp only at this
    unfold Main.mainS2Easy at this
    rwa [pe] at this)
  have v5 := run_val e5 (by
    have := val (opt := .S2Hard) rfl
    unfold Main.run at this
    dsimp only at this
    unfold Main.mainS2Hard at this
    rwa [pe] at this)
  refine ⟨u1, u2, u3, u4, u5, g1.block (fun _ h => h) v1.1 v1.2, g2.block (fun _ h => h) v2.1 v2.2,
    g3.block (fun _ h => h) v3.1 v3.2, g4.block (fun _ h => h) v4.1 v4.2,
    g5.block (fun _ h => h) v5.1 v5.2, ?_⟩
  have hro : (runOut ⟨set.print, false, set⟩ o (Main.algEnv e set pco.option) tiny pco.option pco.x (getNumThreads e.ompMax set.threads)).run [] =
      .ok ((r, ⟨set.print, false, set⟩), u) := by
    have : runOut ⟨set.print, false, set⟩ o (Main.algEnv e set pco.option) tiny pco.option pco.x (getNumThreads e.ompMax set.threads) =
        (piOut ⟨set.print, false, set⟩ o (Main.algEnv e set pco.option) tiny x (getNumThreads e.ompMax set.threads) >>= fun r =>
          pure (r, ⟨set.print, false, set⟩)) := by
      rw [hx]
      unfold Main.IsPi at ho
      simp only [List.mem_cons, List.not_mem_nil, or_false] at ho
      rcases ho with h | h | h <;> rw [h] <;> rfl
    rw [this, StateT.run_bind, hk []]
    rfl
  unfold mainOut
  rw [h1, ok_bind, (Main.C41_starts e args pco set).2 h, ok_bind]
  dsimp only
  rw [hro]
  dsimp only
  rw [if_neg (by simp), Main.decimal_fits (by omega) h4, ok_bind, hu, if_pos hp, if_pos htm]
  unfold secondsText nl
  simp

/-! ### The LMO algorithms -/

/-- What the algorithms `pi_lmo2`, … write. -/
def LmoText (title : Option String) (f : Flags) (o : OutEnv) (e : Pi.Env) (tiny : Vec PhiTiny.Tab) (x y c : ℕ) (alpha : Dbl) (threads : ℤ)
    (s2 : ℕ → ℕ → ℕ → Vec ℕ → Vec ℕ → Vec ℤ → M I256) (u : Text) : Prop :=
  ∃ u1 u2 r1 r2 r3 mu lpf primes,
    P2.p2 tiny e.schedP2 e.timeP2 threads x y = .ok r1 ∧ generateMoebius y = .ok mu ∧ generateLpf y = .ok lpf ∧
    generatePrimesT 31 y = .ok primes ∧ PS.s1 e.schedS1 x y c = .ok r2 ∧ s2 x y c primes lpf mu = .ok r3 ∧
    Raw "=== P2(x, y) ===" "Computation of the 2nd partial sieve function" [] (RisingProgress (Main.getStatusPrecision f.set x).toNat)
      "P2" (o.seconds "P2") u1 r1 ∧
    Raw "=== S1(x, y) ===" "Computation of the ordinary leaves" [] NoProgress "S1_sum" (o.seconds "S1") u2 r2 ∧
    match title with
    | none => u = u1 ++ u2
    | some s => ∃ u3, Raw "=== S2(x, y) ===" "Computation of the special leaves" [] NoProgress "S2" (o.seconds "S2") u3 r3 ∧
      u = heading s "pi(x) = S1 + S2 + pi(y) - 1 - P2" ++ parameters x y (some c) alpha threads ++ (u1 ++ (u2 ++ u3))

theorem liftEx {α β : Type} {m : M α} {f : α → W β} {g : α → M β} {Q : α → Text → β → Prop}
    (hf : ∀ a, m = .ok a → Emits (f a) (g a) (Q a)) :
    Emits ((liftM m : W α) >>= f) (m >>= g) (fun u b => ∃ a, m = .ok a ∧ Q a u b) :=
  Emits.liftBind (fun a ha => (hf a ha).mono (fun _ _ _ h => ⟨a, ha, h⟩))

theorem lmoNone_text {f : Flags} (hf : f.print = true) (hv : f.vars = false) (o : OutEnv) {e : Pi.Env}
    (tiny : Vec PhiTiny.Tab) {x y : ℕ} (c : ℕ) (alpha : Dbl) {threads : ℤ} (hn : Nums x y threads)
    (s2 : ℕ → ℕ → ℕ → Vec ℕ → Vec ℕ → Vec ℤ → M I256) (fin : I256 → I256 → I256 → W I256) (fin' : I256 → I256 → I256 → M I256)
    (hfin : ∀ r1 r2 r3, Emits (fin r1 r2 r3) (fin' r1 r2 r3) (fun u _ => u = [])) :
    Emits (do
      let p2 ← p2Out f o tiny e.schedP2 e.timeP2 threads x y
      let mu ← generateMoebius y
      let lpf ← generateLpf y
      let primes ← generatePrimesT 31 y
      let s1 ← s1Out f o e.schedS1 x y c threads
      let s2 ← s2 x y c primes lpf mu
      fin p2 s1 s2) (do
      let p2 ← P2.p2 tiny e.schedP2 e.timeP2 threads x y
      let mu ← generateMoebius y
      let lpf ← generateLpf y
      let primes ← generatePrimesT 31 y
      let s1 ← PS.s1 e.schedS1 x y c
      let s2 ← s2 x y c primes lpf mu
      fin' p2 s1 s2) (fun u _ => LmoText none f o e tiny x y c alpha threads s2 u) := by
  have hvars : ∀ c, vars f x y c threads = [] := fun c => by unfold vars; rw [hv]; rfl
  have k1 := p2Out_text hf o tiny e.schedP2 e.timeP2 hn
  have k2 := s1Out_text hf o e.schedS1 c hn
  rw [hvars] at k1 k2
  refine (k1.bind (fun r1 _ => liftEx (fun mu _ => liftEx (fun lpf _ => liftEx (fun primes _ => k2.bind (fun r2 _ =>
    liftEx (fun r3 _ => hfin r1 r2 r3))))))).mono ?_
  rintro u b - ⟨r1, u1, w1, e1, -, g1, ⟨mu, e2, lpf, e3, primes, e4, r2, u2, w2, e5, -, g2, ⟨r3, e6, rfl⟩, rfl⟩, rfl⟩
  exact ⟨u1, u2, r1, r2, r3, mu, lpf, primes, e1, e2, e3, e4, e5, e6, g1, g2, by rw [List.append_nil]⟩

theorem s2Say_text {f : Flags} (hf : f.print = true) (o : OutEnv) (m : M I256) {w : I256 → W I256} {g : I256 → M I256}
    (hw : ∀ r, Emits (w r) (g r) (fun u _ => u = [])) :
    Emits (sayTitle f "=== S2(x, y) ===" "Computation of the special leaves" >>= fun _ => (liftM m : W I256) >>= fun r3 =>
      sayResult f "S2" r3 (o.seconds "S2") >>= fun _ => w r3) (m >>= g)
      (fun u _ => ∃ r3, m = .ok r3 ∧ Raw "=== S2(x, y) ===" "Computation of the special leaves" [] NoProgress "S2" (o.seconds "S2") u r3) := by
  refine ((sayTitle_text hf _ _).seq (liftEx (fun r _ => (sayResult_ok f "S2" r (o.seconds "S2")).seq (hw r)))).mono ?_
  rintro u b - ⟨v, v', rfl, ⟨r, e1, w, w', ⟨-, h3⟩, rfl, rfl⟩, rfl⟩
  obtain ⟨d, h4, rfl⟩ := h3 hf
  exact ⟨r, e1, [], d, rfl, h4, by simp⟩

theorem lmoSome_text (s : String) {f : Flags} (hf : f.print = true) (hv : f.vars = false) (o : OutEnv) {e : Pi.Env}
    (tiny : Vec PhiTiny.Tab) {x y : ℕ} (c : ℕ) (alpha : Dbl) {threads : ℤ} (hn : Nums x y threads)
    (s2 : ℕ → ℕ → ℕ → Vec ℕ → Vec ℕ → Vec ℤ → M I256) (fin : I256 → I256 → I256 → W I256) (fin' : I256 → I256 → I256 → M I256)
    (hfin : ∀ r1 r2 r3, Emits (fin r1 r2 r3) (fin' r1 r2 r3) (fun u _ => u = [])) :
    Emits (do
      sayTitle f s "pi(x) = S1 + S2 + pi(y) - 1 - P2"
      sayAll f x y (x / y) c alpha threads
      let p2 ← p2Out f o tiny e.schedP2 e.timeP2 threads x y
      let mu ← generateMoebius y
      let lpf ← generateLpf y
      let primes ← generatePrimesT 31 y
      let s1 ← s1Out f o e.schedS1 x y c threads
      sayTitle f "=== S2(x, y) ===" "Computation of the special leaves"
      let s2 ← s2 x y c primes lpf mu
      sayResult f "S2" s2 (o.seconds "S2")
      fin p2 s1 s2) (do
      let p2 ← P2.p2 tiny e.schedP2 e.timeP2 threads x y
      let mu ← generateMoebius y
      let lpf ← generateLpf y
      let primes ← generatePrimesT 31 y
      let s1 ← PS.s1 e.schedS1 x y c
      let s2 ← s2 x y c primes lpf mu
      fin' p2 s1 s2) (fun u _ => LmoText (some s) f o e tiny x y c alpha threads s2 u) := by
  have hvars : ∀ c, vars f x y c threads = [] := fun c => by unfold vars; rw [hv]; rfl
  have k1 := p2Out_text hf o tiny e.schedP2 e.timeP2 hn
  have k2 := s1Out_text hf o e.schedS1 c hn
  rw [hvars] at k1 k2
  refine ((sayTitle_text hf _ _).seq ((sayAll_text hf x y c alpha hn.x127 hn.t0).seq
    (k1.bind (fun r1 _ => liftEx (fun mu _ => liftEx (fun lpf _ => liftEx (fun primes _ => k2.bind (fun r2 _ =>
    s2Say_text hf o _ (fun r3 => hfin r1 r2 r3))))))))).mono ?_
  rintro u b - ⟨v, v', rfl, ⟨w, w', rfl, ⟨r1, u1, w1, e1, -, g1, ⟨mu, e2, lpf, e3, primes, e4, r2, u2, w2, e5, -, g2, ⟨r3, e6, g3⟩, rfl⟩, rfl⟩, rfl⟩, rfl⟩
  exact ⟨u1, u2, r1, r2, r3, mu, lpf, primes, e1, e2, e3, e4, e5, e6, g1, g2, w2, g3, by rw [List.append_assoc]⟩

theorem piLmoOut_text (title : Option String) {f : Flags} (hf : f.print = true) (hv : f.vars = false) (o : OutEnv) {e : Pi.Env} (hfp : e.FP)
    (tiny : Vec PhiTiny.Tab) {x : ℕ} (h2 : 2 ≤ x) (hx : x < 2 ^ 106) {threads : ℤ} (ht : 1 ≤ threads)
    (s2 : ℕ → ℕ → ℕ → Vec ℕ → Vec ℕ → Vec ℤ → M I256) :
    Emits (piLmoOut title f o e tiny threads s2 x) (Lmo.piLmo e tiny threads s2 x)
      (fun u _ => LmoText title f o e tiny x (e.yL x) (min 6 (π (e.yL x))) (e.alphaL x) threads s2 u) := by
  obtain ⟨y1, y2, -⟩ := Pi.yL_facts hfp (by omega : 1 ≤ x) hx
  have hn : Nums x (e.yL x) threads := ⟨by omega, by omega, y1, by nlinarith, by omega⟩
  unfold piLmoOut Lmo.piLmo
  rw [if_neg (by omega), if_neg (by omega)]
  dsimp only
  rw [Int.toNat_natCast]
  refine Emits.liftBind (fun a ha => ?_)
  rw [Pi.getAlphaLmo_eq] at ha
  obtain rfl := Except.ok.inj ha
  refine Emits.liftBind (fun a ha => ?_)
  rw [irootM_eq 3 _ _ (by norm_num)] at ha
  obtain rfl := Except.ok.inj ha
  refine Emits.liftBind (fun y hy => ?_)
  rw [Pi.yL_eq hfp (by omega) hx] at hy
  obtain rfl := Except.ok.inj hy
  generalize e.yL x = y at *
  generalize e.alphaL x = alpha at *
  refine Emits.liftBind (fun c hc => ?_)
  rw [PhiTiny.getC_ok] at hc
  obtain rfl := Except.ok.inj hc
  generalize min 6 (π y) = c at *
  have hfin : ∀ r1 r2 r3 : I256, Emits (do
      let t ← P2.primeSumTiny y
      pure (I256.sub (I256.sub (I256.add (I256.add r2 r3) (I256.ofInt t)) (I256.ofInt 1)) r1)) (do
      let t ← P2.primeSumTiny y
      pure (I256.sub (I256.sub (I256.add (I256.add r2 r3) (I256.ofInt t)) (I256.ofInt 1)) r1)) (fun u _ => u = []) :=
    fun r1 r2 r3 => Emits.liftBind (fun t _ => (Emits.pure _).mono (fun u _ _ h => h.1))
  cases title with
  | none => exact lmoNone_text hf hv o tiny c alpha hn s2 _ _ hfin
  | some s =>
    dsimp only
    rw [cdiv_ok (by omega)]
    exact Emits.liftBind (m := .ok (x / y)) (g := fun _ => _) (Q := fun u _ => LmoText (some s) f o e tiny x y c alpha threads s2 u)
      (fun z hz => by
        obtain rfl := Except.ok.inj hz
        exact lmoSome_text s hf hv o tiny c alpha hn s2 _ _ hfin)

theorem finish {e : Main.Env} (o : OutEnv) {args : List (List Char)} {pco : Main.Options} {set : Main.Settings}
    (h : Accepted e args pco set) (hs : ∃ a ∈ args, ∃ v, Names a .status v) {tiny : Vec PhiTiny.Tab} (h1 : PhiTiny.build = .ok tiny) {r : I256} {u : Text} {s : ℕ}
    (hr : (runOut ⟨set.print, false, set⟩ o (Main.algEnv e set pco.option) tiny pco.option pco.x (getNumThreads e.ompMax set.threads)).run [] =
      .ok ((r, ⟨set.print, false, set⟩), u)) (hv : r.val = s) (hlt : s < 2 ^ 255) :
    mainOut e o args = .ok (.ok ⟨u ++ ['\n'] ++ decimal s ++ "\nSeconds: ".toList ++ fixed 3 (o.seconds "main") ++ ['\n'], [], 0⟩) := by
  have hp : set.print = true := h.print.2 hs
  have htm : pco.time = true := by
    rw [h.time]
    obtain ⟨a, ha, v, hav⟩ := hs
    exact ⟨a, ha, v, Or.inr hav⟩
  unfold mainOut
  rw [h1, ok_bind, (Main.C41_starts e args pco set).2 h, ok_bind]
  dsimp only
  rw [hr]
  dsimp only
  rw [if_neg (by simp), I256.C38_print256_partial r (by rw [hv]; omega), hv, ok_bind, if_pos hp, if_pos htm]
  unfold secondsText nl
  simp

theorem run_val {m : M I256} {r : I256} {P : I256 → Prop} (h1 : m = .ok r) (h2 : Ok m P) : P r := by
  obtain ⟨a, h, h'⟩ := h2
  rw [h1] at h
  obtain rfl := Except.ok.inj h
  exact h'

theorem lift_run {α β : Type} (a : α) (g : α → W β) (t : Text) : ((liftM (.ok a : M α) : W α) >>= g).run t = (g a).run t := rfl

theorem cast_small {x : ℕ} (hx : x < 2 ^ 63) : Main.int64Cast (x : ℤ) = .ok (x : ℤ) := by
  unfold Main.int64Cast
  rw [if_neg (by omega), Int.bmod_eq_of_le (by omega) (by omega)]

theorem S2Sum_fits {x y c : ℕ} (hx1 : 1 ≤ x) (hx : x < 2 ^ 63) (hy : 1 ≤ y) (hyx : y * y ≤ x) (hxy : x < (y + 1) ^ 3) (hy32 : y < 2 ^ 32)
    (hc : 3 ≤ c ∨ y < 8) (hcy : c ≤ π y) : |S2Sum x y c| < 2 ^ 200 := by
  have h1 := primeSum_eq x y c hx1 hy (by nlinarith) hxy hcy
  have h2 := abs_lt.1 (S1Sum_fits (c := c) hx hy32 hc)
  have h3 := P2.P2Sum_le x y
  have h4 := primeSum_le_sq x
  have h5 := primeSum_le_sq y
  have h6 : x * (x + 1) ≤ 2 ^ 63 * 2 ^ 63 := Nat.mul_le_mul hx.le hx
  have h7 : y * y ≤ 2 ^ 32 * 2 ^ 32 := Nat.mul_le_mul hy32.le hy32.le
  have h8 : x * x ≤ 2 ^ 63 * 2 ^ 63 := Nat.mul_le_mul hx.le hx.le
  rw [abs_lt]
  constructor <;> omega

theorem lmo_vals {e : Pi.Env} (hv : Lmo.EnvValid e) {tiny : Vec PhiTiny.Tab} (ht : PhiTiny.Valid tiny 6) {threads : ℤ} (hth : 1 ≤ threads) {x y : ℕ}
    (hx : x < 2 ^ 63) (hy31 : y < 2 ^ 31) (y1 : 1 ≤ y) (y2 : y * y ≤ x) (y3 : x < (y + 1) ^ 3) {r1 r2 : I256} {mu : Vec ℤ} {lpf primes : Vec ℕ}
    (e1 : P2.p2 tiny e.schedP2 e.timeP2 threads x y = .ok r1) (e2 : generateMoebius y = .ok mu) (e3 : generateLpf y = .ok lpf)
    (e4 : generatePrimesT 31 y = .ok primes) (e5 : PS.s1 e.schedS1 x y (min 6 (π y)) = .ok r2) :
    r1.val = P2Sum x y ∧ r2.val = S1Sum x y (min 6 (π y)) ∧ Lmo.Tab y mu lpf ∧ PrimeTable primes (π y) := by
  obtain ⟨c1, c2, c3⟩ := c_cases y
  obtain ⟨mu', hm, hmu⟩ := generateMoebius_ok hy31
  obtain ⟨lpf', hl, hlpf⟩ := generateLpf_ok hy31
  rw [e2] at hm
  rw [e3] at hl
  obtain rfl := Except.ok.inj hm
  obtain rfl := Except.ok.inj hl
  rw [generatePrimesT_eq hy31] at e4
  obtain rfl := Except.ok.inj e4
  exact ⟨run_val e1 (P2_val ht hv.schedP2 _ hth (y := y) (show x < 2 ^ 124 by omega) (by omega) (z62_of_lt (by omega) y1 y3)),
    run_val e5 (C12_S1_64_fits_partial _ hv.schedS1 x y _ hx y1 (by omega) (prm_small (by omega)) c2), Lmo.tables_ok y hmu hlpf,
    generatePrimes_table y⟩

/-- `primesum x --lmo --status`: heading, parameters, `P2`, `S1` and `S2`, the result and the elapsed time.  Missing: see C10. -/
theorem C73_lmo_partial (e : Main.Env) (o : OutEnv) (args : List (List Char)) (pco : Main.Options) (set : Main.Settings) (x : ℕ)
    (h : Accepted e args pco set) (homp : 1 ≤ e.ompMax) (ho : pco.option = .lmo ∨ pco.option = .lmoParallel1) (hx : pco.x = x)
    (hs : ∃ a ∈ args, ∃ v, Names a .status v)
    (hv : Lmo.EnvValid (Main.algEnv e set pco.option)) (h2 : 2 ≤ x) (hb : x < 2 ^ 63) (hy31 : (Main.algEnv e set pco.option).yL x < 2 ^ 31)
    (y c n : ℕ) (hy : y = (Main.algEnv e set pco.option).yL x) (hc : c = min 6 (π y)) (hn : n = (Main.getStatusPrecision set x).toNat) :
    ∃ t1 t2 t3, PartText o .P2 n [] (P2Sum x y) t1 ∧ PartText o .S1 n [] (S1Sum x y c) t2 ∧
      Block "=== S2(x, y) ===" "Computation of the special leaves" [] NoProgress "S2" (S2Sum x y c) (o.seconds "S2") t3 ∧
      mainOut e o args = .ok (.ok ⟨heading "=== pi_lmo_parallel1(x) ===" "pi(x) = S1 + S2 + pi(y) - 1 - P2" ++
        parameters x y (some c) ((Main.algEnv e set pco.option).alphaL x) (getNumThreads e.ompMax set.threads) ++
        t1 ++ t2 ++ t3 ++ ['\n'] ++ decimal (primeSum x) ++ "\nSeconds: ".toList ++ fixed 3 (o.seconds "main") ++ ['\n'], [], 0⟩) := by
  have hp : set.print = true := h.print.2 hs
  have hth := Main.threads_pos h homp
  obtain ⟨tiny, h1, ht⟩ := PhiTiny.build_ok
  obtain ⟨r, h3, h4⟩ := C10_pi_lmo_parallel1_partial _ x _ hv hth hb hy31
  change (do let tiny ← PhiTiny.build; Lmo.piLmoParallel1 _ tiny x _) = _ at h3
  rw [h1, ok_bind] at h3
  have hro : runOut ⟨set.print, false, set⟩ o (Main.algEnv e set pco.option) tiny pco.option pco.x (getNumThreads e.ompMax set.threads) =
      (liftM (Main.int64Cast pco.x) >>= fun x => piLmoOut (some "=== pi_lmo_parallel1(x) ===") ⟨set.print, false, set⟩ o (Main.algEnv e set pco.option) tiny
        (getNumThreads e.ompMax set.threads) (fun x y c primes lpf mu => Lmo.s2Par (Main.algEnv e set pco.option).hard x y c primes lpf mu
        (getNumThreads e.ompMax set.threads)) x) >>= fun r => pure (r, ⟨set.print, false, set⟩) := by
    rcases ho with h | h <;> rw [h] <;> rfl
  have k := piLmoOut_text (some "=== pi_lmo_parallel1(x) ===") (f := ⟨set.print, false, set⟩) hp rfl o hv.fp tiny h2 (by omega) hth
    (fun x y c primes lpf mu => Lmo.s2Par (Main.algEnv e set pco.option).hard x y c primes lpf mu (getNumThreads e.ompMax set.threads))
  change Emits _ (Lmo.piLmoParallel1 _ tiny x _) _ at k
  rw [h3] at k
  obtain ⟨u, ⟨u1, u2, r1, r2, r3, mu, lpf, primes, e1, e2, e3, e4, e5, e6, g1, g2, u3, g3, hu⟩, hk⟩ := k
  obtain ⟨y1, y2, y3⟩ := Pi.yL_facts hv.fp (by omega : 1 ≤ x) (by omega)
  have hz := z_bound58 (by omega) (by omega) (Pi.yL_range hv.fp (by omega : 1 ≤ x) (by omega)).1
  have hrun : (runOut ⟨set.print, false, set⟩ o (Main.algEnv e set pco.option) tiny pco.option pco.x (getNumThreads e.ompMax set.threads)).run [] =
      .ok ((r, ⟨set.print, false, set⟩), u) := by
    rw [hro, hx, cast_small hb, StateT.run_bind, lift_run, hk []]
    rfl
  have hfin := finish o h hs h1 hrun h4 (by have := primeSum_le_sq x; nlinarith)
  subst hy hc hn
  obtain ⟨c1, c2, c3⟩ := c_cases ((Main.algEnv e set pco.option).yL x)
  generalize (Main.algEnv e set pco.option).yL x = y at *
  obtain ⟨v1, v2, hT, hP⟩ := lmo_vals hv ht hth hb hy31 y1 y2 y3 e1 e2 e3 e4 e5
  have hfits := S2Sum_fits (c := min 6 (π y)) (by omega) hb y1 y2 y3 (by omega) c2 (by omega)
  have h5 := abs_lt.1 hfits
  have v3 : r3.val = S2Sum x y (min 6 (π y)) := LawfulRes.rep_val (R := I256) r3 _ (run_val e6 (Lmo.s2Par_ok hv.schedHard y1 y2 (by omega) (by omega) hy31
      hb (by omega) hT hP)) ⟨by omega, by omega⟩
  have h6 := P2.P2Sum_le x y
  have h7 := abs_lt.1 (S1Sum_fits (c := min 6 (π y)) hb (by omega : y < 2 ^ 32) c2)
  refine ⟨u1, u2, u3, g1.block (fun _ h => h) v1 (by rw [v1]; omega), g2.block (fun _ h => h) v2 (by rw [v2]; omega),
    g3.block (fun _ h => h) v3 (by rw [v3]; omega), ?_⟩
  rw [hfin, hu]
  simp

theorem lmo64_text {e : Main.Env} (o : OutEnv) {args : List (List Char)} {pco : Main.Options} {set : Main.Settings} {x : ℕ}
    (h : Accepted e args pco set) (hx : pco.x = x) (hs : ∃ a ∈ args, ∃ v, Names a .status v)
    (hfp : (Main.algEnv e set pco.option).FP) (h2 : 2 ≤ x) (hfit : primeSum x < 2 ^ 63) {tiny : Vec PhiTiny.Tab} (h1 : PhiTiny.build = .ok tiny)
    {title : Option String} {s2 : ℕ → ℕ → ℕ → Vec ℕ → Vec ℕ → Vec ℤ → M I256}
    (hm : Lmo.toI64 (Lmo.piLmo (Main.algEnv e set pco.option) tiny 1 s2 x) = .ok (primeSum x : ℤ))
    (hro : runOut ⟨set.print, false, set⟩ o (Main.algEnv e set pco.option) tiny pco.option pco.x (getNumThreads e.ompMax set.threads) =
      (liftM (Main.int64Cast pco.x) >>= fun x => piLmoOut title ⟨set.print, false, set⟩ o (Main.algEnv e set pco.option) tiny 1 s2 x >>= fun r =>
        (liftM (viaI64 r) : W I256)) >>= fun r => pure (r, ⟨set.print, false, set⟩)) :
    ∃ u, LmoText title ⟨set.print, false, set⟩ o (Main.algEnv e set pco.option) tiny x ((Main.algEnv e set pco.option).yL x)
        (min 6 (π ((Main.algEnv e set pco.option).yL x))) ((Main.algEnv e set pco.option).alphaL x) 1 s2 u ∧
      mainOut e o args = .ok (.ok ⟨u ++ ['\n'] ++ decimal (primeSum x) ++ "\nSeconds: ".toList ++ fixed 3 (o.seconds "main") ++ ['\n'], [], 0⟩) := by
  have hb := C06_domain x hfit
  have hp : set.print = true := h.print.2 hs
  obtain ⟨r, h3, h4⟩ := bind_inv hm
  obtain ⟨w, h5, h6⟩ := bind_inv h4
  have h7 := Except.ok.inj h6
  have k := piLmoOut_text title (f := ⟨set.print, false, set⟩) hp rfl o hfp tiny h2 (by omega) le_rfl s2
  rw [h3] at k
  obtain ⟨u, hu, hk⟩ := k
  have hvia : viaI64 r = .ok (I256.ofInt (primeSum x)) := by
    unfold viaI64
    rw [h5, ok_bind, h7]
    rfl
  have hval : (I256.ofInt (primeSum x)).val = (primeSum x : ℤ) :=
    LawfulRes.rep_val (R := I256) _ _ (LawfulRes.rep_ofInt (R := I256) _ (by omega) (by omega)) (primeSum_inRange (by omega))
  refine ⟨u, hu, finish o h hs h1 ?_ hval (by omega)⟩
  rw [hro, hx, cast_small (by omega), StateT.run_bind, lift_run, StateT.run_bind, hk []]
  show ((liftM (viaI64 r) : W I256).run ([] ++ u) >>= _) = _
  rw [hvia]
  rfl

/-- `primesum x --lmo2 --status`, also `--lmo3` and `--lmo4`: only `P2` and `S1` are shown before the result.  Missing: see C06 and C07. -/
theorem C73_lmo234_partial (e : Main.Env) (o : OutEnv) (args : List (List Char)) (pco : Main.Options) (set : Main.Settings) (x : ℕ)
    (h : Accepted e args pco set) (ho : pco.option = .lmo2 ∨ pco.option = .lmo3 ∨ pco.option = .lmo4) (hx : pco.x = x)
    (hs : ∃ a ∈ args, ∃ v, Names a .status v)
    (hv : Lmo.EnvValid (Main.algEnv e set pco.option)) (h2 : 2 ≤ x) (hfit : primeSum x < 2 ^ 63)
    (y c n : ℕ) (hy : y = (Main.algEnv e set pco.option).yL x) (hc : c = min 6 (π y)) (hn : n = (Main.getStatusPrecision set x).toNat) :
    ∃ t1 t2, PartText o .P2 n [] (P2Sum x y) t1 ∧ PartText o .S1 n [] (S1Sum x y c) t2 ∧
      mainOut e o args = .ok (.ok ⟨t1 ++ t2 ++ ['\n'] ++ decimal (primeSum x) ++ "\nSeconds: ".toList ++ fixed 3 (o.seconds "main") ++ ['\n'], [], 0⟩) := by
  obtain ⟨tiny, h1, ht⟩ := PhiTiny.build_ok
  have hb := C06_domain x hfit
  obtain ⟨y1, y2, y3⟩ := Pi.yL_facts hv.fp (by omega : 1 ≤ x) (by omega)
  have hy31 := Lmo.y_lt_31 y2 (by omega)
  have key : ∃ s2 u, LmoText none ⟨set.print, false, set⟩ o (Main.algEnv e set pco.option) tiny x ((Main.algEnv e set pco.option).yL x)
        (min 6 (π ((Main.algEnv e set pco.option).yL x))) ((Main.algEnv e set pco.option).alphaL x) 1 s2 u ∧
      mainOut e o args = .ok (.ok ⟨u ++ ['\n'] ++ decimal (primeSum x) ++ "\nSeconds: ".toList ++ fixed 3 (o.seconds "main") ++ ['\n'], [], 0⟩) := by
    rcases ho with ho | ho | ho
    · obtain ⟨r, h3, rfl⟩ := C06_pi_lmo2_partial _ x hv hfit
      change (do let tiny ← PhiTiny.build; Lmo.piLmo2 _ tiny (x : ℤ)) = _ at h3
      rw [h1, ok_bind] at h3
      exact ⟨_, lmo64_text o h hx hs hv.fp h2 hfit h1 h3 (by rw [ho]; rfl)⟩
    · obtain ⟨r, h3, rfl⟩ := C07_pi_lmo3_partial _ x hv hfit
      change (do let tiny ← PhiTiny.build; Lmo.piLmo3 _ tiny (x : ℤ)) = _ at h3
      rw [h1, ok_bind] at h3
      exact ⟨_, lmo64_text o h hx hs hv.fp h2 hfit h1 h3 (by rw [ho]; rfl)⟩
    · obtain ⟨r, h3, rfl⟩ := C08_pi_lmo4 _ x hv hfit
      change (do let tiny ← PhiTiny.build; Lmo.piLmo4 _ tiny (x : ℤ)) = _ at h3
      rw [h1, ok_bind] at h3
      exact ⟨_, lmo64_text o h hx hs hv.fp h2 hfit h1 h3 (by rw [ho]; rfl)⟩
  obtain ⟨s2, u, ⟨u1, u2, r1, r2, r3, mu, lpf, primes, e1, e2, e3, e4, e5, e6, g1, g2, rfl⟩, hk⟩ := key
  subst hy hc hn
  obtain ⟨c1, c2, c3⟩ := c_cases ((Main.algEnv e set pco.option).yL x)
  generalize (Main.algEnv e set pco.option).yL x = y at *
  obtain ⟨v1, v2, hT, hP⟩ := lmo_vals hv ht le_rfl (by omega) hy31 y1 y2 y3 e1 e2 e3 e4 e5
  have h7 := abs_lt.1 (S1Sum_fits (x := x) (c := min 6 (π y)) (by omega) (by omega : y < 2 ^ 32) c2)
  exact ⟨u1, u2, g1.block (fun _ h => h) v1 (by rw [v1]; omega), g2.block (fun _ h => h) v2 (by rw [v2]; omega), hk⟩

/-- `primesum x --lmo5 --status`.  The value shown for `S2` is right modulo `2^64`, and right if `x < 2^29`.  Missing: see C09. -/
theorem C73_lmo5_partial (e : Main.Env) (o : OutEnv) (args : List (List Char)) (pco : Main.Options) (set : Main.Settings) (x : ℕ)
    (h : Accepted e args pco set) (ho : pco.option = .lmo5) (hx : pco.x = x)
    (hs : ∃ a ∈ args, ∃ v, Names a .status v)
    (hv : Lmo.EnvValid (Main.algEnv e set pco.option)) (h2 : 2 ≤ x) (hfit : primeSum x < 2 ^ 63)
    (y c n : ℕ) (hy : y = (Main.algEnv e set pco.option).yL x) (hc : c = min 6 (π y)) (hn : n = (Main.getStatusPrecision set x).toNat) :
    ∃ t1 t2 t3 v, PartText o .P2 n [] (P2Sum x y) t1 ∧ PartText o .S1 n [] (S1Sum x y c) t2 ∧
      Block "=== S2(x, y) ===" "Computation of the special leaves" [] NoProgress "S2" v (o.seconds "S2") t3 ∧
      v = (S2Sum x y c).bmod (2 ^ 64) ∧
      mainOut e o args = .ok (.ok ⟨heading "=== pi_lmo5(x) ===" "pi(x) = S1 + S2 + pi(y) - 1 - P2" ++
        parameters x y (some c) ((Main.algEnv e set pco.option).alphaL x) 1 ++
        t1 ++ t2 ++ t3 ++ ['\n'] ++ decimal (primeSum x) ++ "\nSeconds: ".toList ++ fixed 3 (o.seconds "main") ++ ['\n'], [], 0⟩) := by
  obtain ⟨tiny, h1, ht⟩ := PhiTiny.build_ok
  have hb := C06_domain x hfit
  obtain ⟨y1, y2, y3⟩ := Pi.yL_facts hv.fp (by omega : 1 ≤ x) (by omega)
  have hy31 := Lmo.y_lt_31 y2 (by omega)
  obtain ⟨r, h3, rfl⟩ := C09_pi_lmo5_partial _ x hv hfit
  change (do let tiny ← PhiTiny.build; Lmo.piLmo5 _ tiny (x : ℤ)) = _ at h3
  rw [h1, ok_bind] at h3
  obtain ⟨u, ⟨u1, u2, r1, r2, r3, mu, lpf, primes, e1, e2, e3, e4, e5, e6, g1, g2, u3, g3, rfl⟩, hk⟩ :=
    lmo64_text o h hx hs hv.fp h2 hfit h1 h3 (title := some "=== pi_lmo5(x) ===") (by rw [ho]; rfl)
  subst hy hc hn
  obtain ⟨c1, c2, c3⟩ := c_cases ((Main.algEnv e set pco.option).yL x)
  generalize (Main.algEnv e set pco.option).yL x = y at *
  obtain ⟨v1, v2, hT, hP⟩ := lmo_vals hv ht le_rfl (by omega) hy31 y1 y2 y3 e1 e2 e3 e4 e5
  have h7 := abs_lt.1 (S1Sum_fits (x := x) (c := min 6 (π y)) (by omega) (by omega : y < 2 ^ 32) c2)
  obtain ⟨w, h8, h9⟩ := bind_inv e6
  have h10 := Except.ok.inj h9
  obtain ⟨w', h11, h12⟩ := Lmo.s2Lmo5_ok (S := AccSpec.w64) (c := min 6 (π y)) y1 hy31 y2 (by omega) ((Nat.div_le_self _ _).trans_lt (by omega)) (Lmo.limit_sq y1 hb y3)
    (by omega) (by omega) (by omega) (Lmo.w64_hyp _ _ _) hT hP
  rw [h8] at h11
  obtain rfl := Except.ok.inj h11
  change (w.toInt - S2Sum x y (min 6 (π y))) % 2 ^ 64 = 0 at h12
  have h13 := BitVec.toInt_lt (x := w)
  have h14 := BitVec.le_toInt w
  norm_num at h13 h14
  have v3 : r3.val = w.toInt := by
    rw [← h10]
    exact LawfulRes.rep_val (R := I256) _ _ (LawfulRes.rep_ofInt (R := I256) _ (by omega) (by omega)) ⟨by norm_num; omega, by norm_num; omega⟩
  have hw : w.toInt = (S2Sum x y (min 6 (π y))).bmod (2 ^ 64) := by
    rw [Int.bmod_def]
    split <;> omega
  refine ⟨u1, u2, u3, _, g1.block (fun _ h => h) v1 (by rw [v1]; omega), g2.block (fun _ h => h) v2 (by rw [v2]; omega),
    g3.block (fun _ h => h) v3 (by rw [v3]; omega), hw, ?_⟩
  rw [hk]
  simp

theorem piLmo1Out_text {f : Flags} (hf : f.print = true) (hv : f.vars = false) (o : OutEnv) (e : Pi.Env) (tiny : Vec PhiTiny.Tab) {x : ℕ}
    (h2 : 2 ≤ x) (hx : x < 2 ^ 63) :
    Emits (piLmo1Out f o e tiny x) (Lmo.piLmo1 e tiny x) (fun u _ => ∃ r1, P2.p2 tiny e.schedP2 e.timeP2 1 x (iroot 3 x) = .ok r1 ∧
      Raw "=== P2(x, y) ===" "Computation of the 2nd partial sieve function" [] (RisingProgress (Main.getStatusPrecision f.set x).toNat)
        "P2" (o.seconds "P2") u r1) := by
  have h1 : 1 ≤ iroot 3 x := le_iroot (by norm_num) (by omega)
  have h3 := iroot_le 3 x (by norm_num)
  have h4 : iroot 3 x ≤ 2 ^ 53 := by
    by_contra hc
    have : (2 ^ 53) ^ 3 ≤ iroot 3 x ^ 3 := Nat.pow_le_pow_left (by omega) 3
    norm_num at this
    omega
  have k1 := p2Out_text hf o tiny e.schedP2 e.timeP2 (threads := 1) ⟨(by omega : 1 ≤ x), by omega, h1, h4, by norm_num⟩
  rw [show vars f x (iroot 3 x) none 1 = [] by unfold vars; rw [hv]; rfl] at k1
  unfold piLmo1Out Lmo.piLmo1
  rw [if_neg (by omega), if_neg (by omega), Int.toNat_natCast]
  refine (Emits.liftBind (fun y hy => ?_))
  rw [irootM_eq 3 _ _ (by norm_num)] at hy
  obtain rfl := Except.ok.inj hy
  refine Emits.liftBind (fun piY _ => Emits.liftBind (fun c _ => Emits.liftBind (fun primes _ => ?_)))
  refine Emits.liftBind (fun lpf _ => Emits.liftBind (fun mu _ => Emits.liftBind (fun s1 _ => Emits.liftBind (fun s2 _ => ?_))))
  refine (k1.bind (fun r1 _ => liftEx (fun t _ => Emits.pure _))).mono ?_
  rintro u b - ⟨r1, u1, w1, e1, -, g1, ⟨t, e2, rfl, -⟩, rfl⟩
  exact ⟨r1, e1, by rw [List.append_nil]; exact g1⟩

/-- `primesum x --lmo1 --status`: only `P2` is shown before the result; `y` is the cube root of `x`. -/
theorem C73_lmo1 (e : Main.Env) (o : OutEnv) (args : List (List Char)) (pco : Main.Options) (set : Main.Settings) (x : ℕ)
    (h : Accepted e args pco set) (ho : pco.option = .lmo1) (hx : pco.x = x) (hs : ∃ a ∈ args, ∃ v, Names a .status v)
    (hv : (Main.algEnv e set pco.option).schedP2.Valid) (h2 : 2 ≤ x) (hb : x < 2 ^ 63) :
    ∃ t1, PartText o .P2 (Main.getStatusPrecision set x).toNat [] (P2Sum x (iroot 3 x)) t1 ∧
      mainOut e o args = .ok (.ok ⟨t1 ++ ['\n'] ++ decimal (primeSum x) ++ "\nSeconds: ".toList ++ fixed 3 (o.seconds "main") ++ ['\n'], [], 0⟩) := by
  obtain ⟨tiny, h1, ht⟩ := PhiTiny.build_ok
  have hp : set.print = true := h.print.2 hs
  obtain ⟨r, h3, h4⟩ := C05_pi_lmo1 (Main.algEnv e set pco.option) x hv (by omega)
  change (do let tiny ← PhiTiny.build; Lmo.piLmo1 _ tiny (x : ℤ)) = _ at h3
  rw [h1, ok_bind] at h3
  have k := piLmo1Out_text (f := ⟨set.print, false, set⟩) hp rfl o (Main.algEnv e set pco.option) tiny h2 hb
  rw [h3] at k
  obtain ⟨u, ⟨r1, e1, g1⟩, hk⟩ := k
  have y1 : 1 ≤ iroot 3 x := le_iroot (by norm_num) (by omega)
  have y2 := iroot_le 3 x (by norm_num)
  have y3 := lt_iroot_succ 3 x (by norm_num)
  have y4 : iroot 3 x < 2 ^ 31 := by
    by_contra hc
    have : (2 ^ 31) ^ 3 ≤ iroot 3 x ^ 3 := Nat.pow_le_pow_left (by omega) 3
    norm_num at this
    omega
  have v1 : r1.val = P2Sum x (iroot 3 x) :=
    run_val e1 (P2_val ht hv _ le_rfl (y := iroot 3 x) (show x < 2 ^ 124 by omega) (by omega) (z62_of_lt (by omega) y1 y3))
  have hsum := primeSum_inRange (x := x) (by omega)
  refine ⟨u, g1.block (fun _ h => h) v1 (by rw [v1]; omega), finish o h hs h1 (r := r) ?_ h4 (by have := hsum.2; norm_num at this; omega)⟩
  rw [hx, ho]
  show ((liftM (Main.int64Cast (x : ℤ)) >>= fun x => piLmo1Out ⟨set.print, false, set⟩ o (Main.algEnv e set .lmo1) tiny x) >>= fun r =>
    pure (r, ⟨set.print, false, set⟩) : W (I256 × Flags)).run [] = _
  rw [ho] at hk
  rw [cast_small (by omega), StateT.run_bind, lift_run, hk []]
  rfl

/-! ## Examples -/

example : heading "=== S1(x, y) ===" "Computation of the ordinary leaves" ++
    parameters 100 9 (some 4) (.fin (9 / 4)) 8 ++ ending "S1_sum" (-17) (.fin (1 / 8)) =
  ("\n=== S1(x, y) ===\nComputation of the ordinary leaves\nx = 100\ny = 9\nz = 11\nc = 4\nalpha = 2.250\nthreads = 8\n" ++
   "\r                                                  \rStatus: 100%\nS1_sum = -17\nSeconds: 0.125\n").toList := by decide +kernel

/-- `primesum x --status` with nothing to compute: for `x < 2` (parts of the formula: `x < 1`) nothing but the result 0 and the
elapsed time is shown.  For `x < -2^63` the options `--lmo*` truncate `x` (C42_counterexample). -/
theorem C73_small (e : Main.Env) (o : OutEnv) (args : List (List Char)) (pco : Main.Options) (set : Main.Settings)
    (h : Accepted e args pco set) (hs : ∃ a ∈ args, ∃ v, Names a .status v)
    (hx : pco.x < 1 ∨ (pco.x < 2 ∧ Main.label pco.option = none)) (hlo : -2 ^ 63 ≤ pco.x ∨ Main.IsPi pco.option ∨ Main.label pco.option ≠ none) :
    mainOut e o args = .ok (.ok ⟨"\n0\nSeconds: ".toList ++ fixed 3 (o.seconds "main") ++ ['\n'], [], 0⟩) := by
  obtain ⟨tiny, h1, ht⟩ := PhiTiny.build_ok
  have hval : (I256.ofInt 0).val = (0 : ℕ) := by decide +kernel
  have h2 : pco.x < 2 := by omega
  have hvia : viaI64 (I256.ofInt 0) = .ok (I256.ofInt 0) := by decide +kernel
  refine (finish (u := []) (s := 0) (r := I256.ofInt 0) o h hs h1 ?_ hval (by norm_num)).trans ?_
  · have hpi : ∀ f, piOut f o (Main.algEnv e set pco.option) tiny pco.x (getNumThreads e.ompMax set.threads) = pure (I256.ofInt 0) := by
      intro f
      unfold piOut
      rw [if_pos h2]
    have hpart : ∀ name f g, pco.x < 1 → partOut name f (Main.algEnv e set pco.option) pco.x g = pure (I256.ofInt 0, f) := by
      intro name f g h
      unfold partOut
      rw [if_pos h]
    have hl1 : ∀ f, piLmo1Out f o (Main.algEnv e set pco.option) tiny pco.x = pure (I256.ofInt 0) := by
      intro f
      unfold piLmo1Out
      rw [if_pos h2]
    have hl : ∀ t f th s2, piLmoOut t f o (Main.algEnv e set pco.option) tiny th s2 pco.x = pure (I256.ofInt 0) := by
      intro t f th s2
      unfold piLmoOut
      rw [if_pos h2]
    have hc : -2 ^ 63 ≤ pco.x → Main.int64Cast pco.x = .ok pco.x := by
      intro h
      unfold Main.int64Cast
      rw [if_neg (by omega), Int.bmod_eq_of_le (by omega) (by omega)]
    generalize Main.algEnv e set pco.option = ev at *
    unfold runOut Main.IsPi at *
    cases ho : pco.option <;> rw [ho] at hx hlo <;> simp only [Main.label, reduceCtorEq, and_false, or_false, and_true, ne_eq,
      not_true_eq_false, not_false_eq_true, or_true, List.mem_cons, List.not_mem_nil] at hx hlo ⊢ <;> first | rfl | skip
    all_goals first
      | (rw [hpi]; rfl)
      | (rw [hpart _ _ _ hx]; rfl)
      | (rw [hc (by simpa using hlo), StateT.run_bind, lift_run]; first | (rw [hl1]; rfl) | (rw [hl, pure_bind, hvia]; rfl) | (rw [hl]; rfl))
  · simp [decimal]

theorem example_status : ∃ a ∈ ["100".toList, "-s".toList], ∃ v, Names a .status v :=
  ⟨_, List.mem_cons_of_mem _ List.mem_cons_self, [], .plain ⟨"-s", List.mem_cons_self, rfl⟩⟩

/-- `primesum 100 -s`. -/
example (o : OutEnv) : ∃ t1 t2 t3 t4 t5, ∃ y c,
      PartText o .P2 0 [] (P2Sum 100 y) t1 ∧ PartText o .S1 0 [] (S1Sum 100 y c) t2 ∧ PartText o .S2Trivial 0 [] (S2TrivialSum 100 y c) t3 ∧
      PartText o .S2Easy 0 [] (S2EasySum 100 y c) t4 ∧ PartText o .S2Hard 0 [] (S2HardSum 100 y c) t5 ∧
      ∃ a, mainOut Main.exampleMainEnv o ["100".toList, "-s".toList] = .ok (.ok ⟨heading "=== pi_deleglise_rivat_parallel1(x) ===" "pi(x) = S1 + S2 + pi(y) - 1 - P2" ++
        parameters 100 y (some c) a 8 ++
        t1 ++ t2 ++ t3 ++ t4 ++ t5 ++ ['\n'] ++ decimal 1060 ++ "\nSeconds: ".toList ++ fixed 3 (o.seconds "main") ++ ['\n'], [], 0⟩) := by
  have h : Accepted Main.exampleMainEnv ["100".toList, "-s".toList] ⟨100, .pi, true⟩ { print := true } := (Main.C41_starts _ _ _ _).1 rfl
  have hs : primeSum 100 = 1060 := by unfold primeSum; decide +kernel
  obtain ⟨t1, t2, t3, t4, t5, g1, g2, g3, g4, g5, g⟩ := C73_pi_partial Main.exampleMainEnv o _ _ _ 100 h (by decide) (by unfold Main.IsPi; decide) rfl
    example_status (Main.exampleMainEnv_valid h _) exampleLib_skew (by norm_num) (Or.inl (by norm_num)) (Or.inl (by norm_num)) _ _ 0 rfl rfl (by decide +kernel)
  rw [hs] at g
  exact ⟨t1, t2, t3, t4, t5, _, _, g1, g2, g3, g4, g5, _, g⟩

/-- `primesum --P2 100 -s`. -/
example (o : OutEnv) : ∃ t y, ∃ n a, PartText o .P2 n (parameters 100 y none a 8 ++ ['\n']) (P2Sum 100 y) t ∧
    mainOut Main.exampleMainEnv o ["--P2".toList, "100".toList, "-s".toList] = .ok (.ok ⟨t, [], 0⟩) := by
  have h : Accepted Main.exampleMainEnv ["--P2".toList, "100".toList, "-s".toList] ⟨100, .P2, true⟩ { print := true } :=
    (Main.C41_starts _ _ _ _).1 rfl
  obtain ⟨t, g1, g2⟩ := C73_part_partial Main.exampleMainEnv o _ _ _ 100 "P2" h (by decide) rfl rfl
    (by obtain ⟨a, ha, hb⟩ := example_status; exact ⟨a, List.mem_cons_of_mem _ ha, hb⟩) (Main.exampleMainEnv_valid h _) exampleLib_skew
    (by norm_num) (by norm_num) (Pi.le_limit (Main.exampleMainEnv_valid h _).fp (by norm_num) (by norm_num)) (fun h => by simp at h)
    (fun h => by simp at h) _ _ rfl rfl
  exact ⟨t, _, _, _, g1, g2⟩

/-- `primesum 100 -s` with the LMO algorithms: their hypotheses hold, too. -/
theorem example_lmo {args : List (List Char)} {pco : Main.Options} {set : Main.Settings} (h : Accepted Main.exampleMainEnv args pco set) :
    Lmo.EnvValid (Main.algEnv Main.exampleMainEnv set pco.option) :=
  ⟨Scheduler.seq_valid, Scheduler.seq_valid, Scheduler.seq_valid, ⟨exampleLib_ok, Main.C68_accepted Main.exampleMainEnv_toDouble h⟩⟩

/-- `primesum 1 -s`. -/
example (o : OutEnv) : mainOut Main.exampleMainEnv o ["1".toList, "-s".toList] =
    .ok (.ok ⟨"\n0\nSeconds: ".toList ++ fixed 3 (o.seconds "main") ++ ['\n'], [], 0⟩) :=
  C73_small Main.exampleMainEnv o _ ⟨1, .pi, true⟩ { print := true } ((Main.C41_starts _ _ _ _).1 rfl)
    ⟨_, List.mem_cons_of_mem _ List.mem_cons_self, [], .plain ⟨"-s", List.mem_cons_self, rfl⟩⟩ (Or.inr (by decide)) (Or.inl (by norm_num))

/-- `primesum 100 -s --lmo`. -/
example (o : OutEnv) : ∃ u, mainOut Main.exampleMainEnv o ["100".toList, "-s".toList, "--lmo".toList] =
    .ok (.ok ⟨u ++ ['\n'] ++ decimal 1060 ++ "\nSeconds: ".toList ++ fixed 3 (o.seconds "main") ++ ['\n'], [], 0⟩) := by
  have h : Accepted Main.exampleMainEnv ["100".toList, "-s".toList, "--lmo".toList] ⟨100, .lmo, true⟩ { print := true } :=
    (Main.C41_starts _ _ _ _).1 rfl
  have hs : primeSum 100 = 1060 := by unfold primeSum; decide +kernel
  obtain ⟨y1, y2, y3⟩ := Pi.yL_facts (example_lmo h).fp (by norm_num : 1 ≤ 100) (by norm_num)
  obtain ⟨t1, t2, t3, -, -, -, g⟩ := C73_lmo_partial Main.exampleMainEnv o _ _ _ 100 h (by decide) (Or.inl rfl) rfl
    (by obtain ⟨a, ha, hb⟩ := example_status; exact ⟨a, List.mem_append_left ["--lmo".toList] ha, hb⟩) (example_lmo h) (by norm_num) (by norm_num)
    (Lmo.y_lt_31 y2 (by norm_num)) _ _ _ rfl rfl rfl
  rw [hs] at g
  exact ⟨_, g⟩

/-- `primesum 100 -s --lmo5`. -/
example (o : OutEnv) : ∃ u, mainOut Main.exampleMainEnv o ["100".toList, "-s".toList, "--lmo5".toList] =
    .ok (.ok ⟨u ++ ['\n'] ++ decimal 1060 ++ "\nSeconds: ".toList ++ fixed 3 (o.seconds "main") ++ ['\n'], [], 0⟩) := by
  have h : Accepted Main.exampleMainEnv ["100".toList, "-s".toList, "--lmo5".toList] ⟨100, .lmo5, true⟩ { print := true } :=
    (Main.C41_starts _ _ _ _).1 rfl
  have hs : primeSum 100 = 1060 := by unfold primeSum; decide +kernel
  obtain ⟨t1, t2, t3, v, -, -, -, -, g⟩ := C73_lmo5_partial Main.exampleMainEnv o _ _ _ 100 h rfl rfl
    (by obtain ⟨a, ha, hb⟩ := example_status; exact ⟨a, List.mem_append_left ["--lmo5".toList] ha, hb⟩) (example_lmo h) (by norm_num) (by omega)
    _ _ _ rfl rfl rfl
  rw [hs] at g
  exact ⟨_, g⟩

end Print
end PS
