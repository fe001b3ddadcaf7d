import Verif.Proof.CalcParse

/-!
# What the parser accepts belongs to the grammar
-/

namespace PS
namespace Calc

open Spec I128

theorem exp_mono {p q : ℕ} {ts : List Tok} {e : Expr} (h : Exp p ts e) (hq : q ≤ p) : Exp q ts e := by
  cases h with
  | val h => exact .val h
  | binL h1 h2 h3 h4 => exact .binL h1 (hq.trans h2) h3 h4
  | binR h1 h2 h3 h4 => exact .binR h1 (hq.trans h2) h3 h4

open Classical in
/-- The level of the left operand. -/
noncomputable def leftLevel (b : BinOp) : ℕ := if b.isLeft then b.prec else b.prec + 1
open Classical in
/-- The level of the right operand. -/
noncomputable def rightLevel (b : BinOp) : ℕ := if b.isLeft then b.prec + 1 else b.prec

theorem exp_bin {b : BinOp} {l r : List Tok} {x y : Expr} (h1 : Exp (leftLevel b) l x) (h2 : Exp (rightLevel b) r y) :
    Exp b.prec (l ++ .op b :: r) (.bin b x y) := by
  unfold leftLevel at h1
  unfold rightLevel at h2
  by_cases h : b.isLeft
  · rw [if_pos h] at h1 h2
    exact .binL h le_rfl h1 h2
  · rw [if_neg h] at h1 h2
    exact .binR h le_rfl h1 h2

/-- A pending operator with the tree of its left operand. -/
structure Frame where
  b : BinOp
  v : ℤ
  l : List Tok
  a : Expr

def Frame.toOpValue (f : Frame) : OpValue := ⟨f.b.toOp, f.v⟩

/-- The level of the tree that is being read. -/
noncomputable def topLevel : List Frame → ℕ
  | [] => 0
  | f :: _ => rightLevel f.b

/-- The pending operators, the innermost first. -/
def Pending : List Frame → Prop
  | [] => True
  | f :: fr => f.a.eval = .ok f.v ∧ Exp (leftLevel f.b) f.l f.a ∧ topLevel fr ≤ f.b.prec ∧ Pending fr

/-- The tokens read so far. -/
def toks : List Frame → List Tok
  | [] => []
  | f :: fr => toks fr ++ (f.l ++ [.op f.b])

theorem level_of_not_red {b c : BinOp} (h : ¬ red b.toOp c.toOp) : rightLevel c ≤ b.prec := by
  rw [red_iff, not_or] at h
  unfold rightLevel
  split
  · rename_i hc
    by_contra h1
    have h2 : b.prec = c.prec := by omega
    exact h.2 ⟨h2, (same_assoc h2).2 hc⟩
  · omega

theorem level_of_red {b c : BinOp} (h : red b.toOp c.toOp) : leftLevel b ≤ c.prec := by
  rw [red_iff] at h
  unfold leftLevel
  split
  · omega
  · rename_i hb
    rcases h with h | h
    · omega
    · exact absurd h.2 hb

/-- The level needed on the left of `o`. -/
noncomputable def opLevel (o : Op) : ℕ := by
  classical
  exact if h : ∃ b : BinOp, o = b.toOp then leftLevel h.choose else 0

theorem toOp_inj {b c : BinOp} (h : b.toOp = c.toOp) : b = c := by
  cases b <;> cases c <;> first | rfl | cases h

theorem opLevel_toOp (b : BinOp) : opLevel b.toOp = leftLevel b := by
  have h : ∃ c : BinOp, b.toOp = c.toOp := ⟨b, rfl⟩
  unfold opLevel
  rw [dif_pos h, ← toOp_inj h.choose_spec]

theorem opLevel_le {o : Op} {c : BinOp} (h : red o c.toOp) : opLevel o ≤ c.prec := by
  rcases op_cases o with rfl | ⟨b, rfl⟩
  · unfold opLevel
    rw [dif_neg]
    · exact Nat.zero_le _
    · rintro ⟨b, hb⟩; exact toOp_ne_null b hb.symm
  · rw [opLevel_toOp]; exact level_of_red h

theorem reduce_sound (o : Op) (S : List OpValue) : ∀ (fr : List Frame) (v : ℤ) (ts : List Tok) (e : Expr) (r : Red),
    Pending fr → e.eval = .ok v → Exp (topLevel fr) ts e → Exp (opLevel o) ts e →
    reduce o v (fr.map Frame.toOpValue ++ ⟨.null, 0⟩ :: S) = .ok r →
    match r with
    | .ret v' S' => S' = S ∧ ∃ e', e'.eval = .ok v' ∧ Exp 0 (toks fr ++ ts) e'
    | .cont v' S' => ∃ fr' ts' e', S' = fr'.map Frame.toOpValue ++ ⟨.null, 0⟩ :: S ∧ Pending fr' ∧
        toks fr' ++ ts' = toks fr ++ ts ∧ e'.eval = .ok v' ∧ Exp (opLevel o) ts' e' ∧
        ∀ b : BinOp, o = b.toOp → topLevel fr' ≤ b.prec := by
  intro fr
  induction fr with
  | nil =>
    intro v ts e r _ he h1 h2 h
    rw [List.map_nil, List.nil_append] at h
    rcases op_cases o with rfl | ⟨b, rfl⟩
    · rw [reduce_ret (red_null _) rfl] at h
      cases h
      exact ⟨rfl, e, he, h1⟩
    · rw [reduce_shift (not_red_null b)] at h
      cases h
      exact ⟨[], ts, e, rfl, trivial, rfl, he, h2, fun _ _ => Nat.zero_le _⟩
  | cons f fr ih =>
    intro v ts e r hP he h1 h2 h
    obtain ⟨p1, p2, p3, p4⟩ := hP
    rw [List.map_cons, List.cons_append] at h
    by_cases hr : red o f.toOpValue.op
    · rw [reduce_step hr (toOp_ne_null f.b)] at h
      change (calculate f.v v f.b.toOp >>= fun w => reduce o w _) = _ at h
      rw [calculate_eq (eval_R p1) (eval_R he)] at h
      cases ha : f.b.apply f.v v with
      | error e => rw [ha] at h; cases h
      | ok w =>
        rw [ha, ok_bind] at h
        have hb : Exp f.b.prec (f.l ++ .op f.b :: ts) (.bin f.b f.a e) := exp_bin p2 h1
        have h3 := ih w (f.l ++ .op f.b :: ts) (.bin f.b f.a e) r p4
          (by rw [Expr.eval, p1, ok_bind, he, ok_bind, ha]) (exp_mono hb p3) (exp_mono hb (opLevel_le hr)) h
        have h4 : toks (f :: fr) ++ ts = toks fr ++ (f.l ++ .op f.b :: ts) := by simp [toks]
        cases r with
        | ret v' S' => rw [h4]; exact h3
        | cont v' S' => rw [h4]; exact h3
    · rw [reduce_shift hr] at h
      cases h
      refine ⟨f :: fr, ts, e, rfl, ⟨p1, p2, p3, p4⟩, rfl, he, h2, ?_⟩
      rintro b rfl
      exact level_of_not_red hr

theorem digits_sound {base : ℕ} (h0 : 0 < base) (h16 : base ≤ 16) {s s1 : List Char} {v : ℤ}
    (h : parseDigits base s 0 = .ok (v, s1)) :
    ∃ ds, s = ds ++ s1 ∧ (∀ d ∈ ds, IsDigit base d) ∧ (∀ c, s1.head? = some c → ¬ IsDigit base c) ∧
      fit (ofDigits base ds) = .ok v := by
  have h1 := parseDigits_eq base h0 h16 s 0 (by norm_num)
  rw [Nat.cast_zero, h] at h1
  refine ⟨s.takeWhile (dig base), ?_⟩
  cases h2 : fit ((s.takeWhile (dig base)).foldl (fun v c => v * base + (digitVal c).getD 0) 0 : ℕ) with
  | error e => rw [h2] at h1; cases h1
  | ok w =>
    rw [h2] at h1
    cases h1
    refine ⟨(List.takeWhile_append_dropWhile).symm, ?_, ?_, h2⟩
    · intro d hd
      exact (dig_iff h0 h16 d).1 (List.all_eq_true.1 (List.all_takeWhile (p := dig base) (l := s)) d hd)
    · intro c hc hd
      have h3 : (s.dropWhile (dig base)).head? = some c := hc
      have := List.head?_dropWhile_not (dig base) s
      rw [h3] at this
      simp only at this
      rw [(dig_iff h0 h16 c).2 hd] at this
      cases this

theorem number_sound {s s1 r : List Char} {c : Char} {v : ℤ} (hs : s = c :: r) (hc : dig 10 c = true)
    (h : parseNumber s = .ok (v, s1)) :
    ∃ n : ℕ, fit n = .ok v ∧ ∀ rest, Lexes s1 rest → Lexes s (.num n :: rest) := by
  unfold parseNumber at h
  split at h
  · rename_i hx
    obtain ⟨a, x, d, r', h1, h2, h3⟩ := isHex_iff.1 hx.2
    obtain ⟨ds, g1, g2, g3, g4⟩ := digits_sound (by norm_num) (by norm_num) h
    refine ⟨_, g4, fun rest hr => ?_⟩
    have ha : a = '0' := by have := hx.1; rw [h1] at this; exact this
    rw [h1] at g1 ⊢
    rw [List.tail_cons, List.tail_cons] at g1
    rw [ha, g1]
    refine .hex h2 ?_ g2 g3 hr
    rintro rfl
    rw [List.nil_append] at g1
    exact g3 d (by rw [← g1]; rfl) ((dig_iff (by norm_num) (by norm_num) d).1 h3)
  · obtain ⟨ds, g1, g2, g3, g4⟩ := digits_sound (by norm_num) (by norm_num) h
    refine ⟨_, g4, fun rest hr => ?_⟩
    rw [g1]
    refine .dec ?_ g2 g3 hr
    rintro rfl
    rw [List.nil_append, hs] at g1
    exact g3 c (by rw [← g1]; rfl) ((dig_iff (by norm_num) (by norm_num) c).1 hc)

theorem bind_ok_inv {α β : Type} {m : M α} {f : α → M β} {b : β} (h : (m >>= f) = .ok b) :
    ∃ a, m = .ok a ∧ f a = .ok b := by
  cases m with
  | error e => cases h
  | ok a => exact ⟨a, rfl, h⟩

theorem sound_parse : ∀ n : ℕ,
    (∀ S s x, parseValue n S s = .ok x → x.2.1 = S ∧ ∃ ts e, Val ts e ∧ e.eval = .ok x.1 ∧
      ∀ rest, Lexes x.2.2 rest → Lexes s (ts ++ rest)) ∧
    (∀ S s x, parseExpr n S s = .ok x → x.2.1 = S ∧ ∃ ts e, Exp 0 ts e ∧ e.eval = .ok x.1 ∧
      ∀ rest, Lexes x.2.2 rest → Lexes s (ts ++ rest)) ∧
    (∀ v fr S s x ts e, Pending fr → e.eval = .ok v → Val ts e →
      parseLoop n v (fr.map Frame.toOpValue ++ ⟨.null, 0⟩ :: S) s = .ok x →
      x.2.1 = S ∧ ∃ ts' e', Exp 0 (toks fr ++ ts ++ ts') e' ∧ e'.eval = .ok x.1 ∧
        ∀ rest, Lexes x.2.2 rest → Lexes s (ts' ++ rest)) := by
  intro n
  induction n with
  | zero =>
    refine ⟨fun S s x h => ?_, fun S s x h => ?_, fun v fr S s x ts e _ _ _ h => ?_⟩
    · rw [parseValue] at h; cases h
    · rw [parseExpr] at h; cases h
    · rw [parseLoop] at h; cases h
  | succ n ih =>
    obtain ⟨ihV, ihE, ihL⟩ := ih
    refine ⟨fun S s x h => ?_, fun S s x h => ?_, fun v fr S s x ts e hP he hval h => ?_⟩
    · rw [parseValue_succ] at h
      suffices H : x.2.1 = S ∧ ∃ ts e, Val ts e ∧ e.eval = .ok x.1 ∧
          ∀ rest, Lexes x.2.2 rest → Lexes (eatSpaces s) (ts ++ rest) by
        obtain ⟨h1, ts, e, h2, h3, h4⟩ := H
        exact ⟨h1, ts, e, h2, h3, fun rest hr => lexes_eat (h4 rest hr)⟩
      cases hs : eatSpaces s with
      | nil => rw [hs] at h; cases h
      | cons c r =>
        rw [hs] at h
        dsimp only at h
        split at h
        · rename_i hc
          obtain ⟨⟨v, s1⟩, h1, h2⟩ := bind_ok_inv h
          cases h2
          obtain ⟨m, h3, h4⟩ := number_sound rfl (dig_range hc) h1
          exact ⟨rfl, [.num m], .num m, .num, h3, fun rest hr => h4 rest hr⟩
        · split at h
          · rename_i hc
            subst hc
            obtain ⟨y, h1, h2⟩ := bind_ok_inv h
            obtain ⟨g1, ts, e, g2, g3, g4⟩ := ihE S r y h1
            split at h2
            · cases h2
            · rename_i hp
              cases h2
              refine ⟨g1, .lpar :: (ts ++ [.rpar]), e, .paren g2, g3, fun rest hr => ?_⟩
              rw [List.cons_append, List.append_assoc]
              refine .sym .lpar (g4 _ (lexes_eat ?_))
              generalize eatSpaces y.2.2 = u at hp hr
              cases u with
              | nil => exact absurd (by decide) hp
              | cons c u =>
                have : c = ')' := not_not.1 hp
                subst this
                exact .sym .rpar hr
          · split at h
            · rename_i hc
              subst hc
              obtain ⟨y, h1, h2⟩ := bind_ok_inv h
              cases h2
              obtain ⟨g1, ts, e, g2, g3, g4⟩ := ihV S r y h1
              exact ⟨g1, _, _, .compl g2, by rw [Expr.eval, g3]; rfl, fun rest hr => .sym .tilde (g4 rest hr)⟩
            · split at h
              · rename_i hc
                subst hc
                obtain ⟨g1, ts, e, g2, g3, g4⟩ := ihV S r x h
                exact ⟨g1, _, _, .plus g2, g3, fun rest hr => .sym .add (g4 rest hr)⟩
              · split at h
                · rename_i hc
                  subst hc
                  obtain ⟨y, h1, h2⟩ := bind_ok_inv h
                  obtain ⟨w, h3, h4⟩ := bind_ok_inv h2
                  cases h4
                  obtain ⟨g1, ts, e, g2, g3, g4⟩ := ihV S r y h1
                  exact ⟨g1, _, _, .neg g2, by rw [Expr.eval, g3]; exact h3, fun rest hr => .sym .sub (g4 rest hr)⟩
                · cases h
    · rw [parseExpr_succ] at h
      obtain ⟨y, h1, h2⟩ := bind_ok_inv h
      obtain ⟨g1, ts, e, g2, g3, g4⟩ := ihV _ s y h1
      rw [g1] at h2
      obtain ⟨k1, ts', e', k2, k3, k4⟩ := ihL y.1 [] S y.2.2 x ts e trivial g3 g2 h2
      refine ⟨k1, ts ++ ts', e', k2, k3, fun rest hr => ?_⟩
      rw [List.append_assoc]
      exact g4 _ (k4 rest hr)
    · rw [parseLoop_succ _ _ _ _ frames_ne] at h
      obtain ⟨⟨o, s2⟩, h1, h⟩ := bind_ok_inv h
      obtain ⟨r, h2, h⟩ := bind_ok_inv h
      have h3 := reduce_sound o S fr v ts e r hP he (.val hval) (.val hval) h2
      dsimp only at h
      cases r with
      | ret v' S' =>
        obtain ⟨h4, e', h5, h6⟩ := h3
        cases h
        refine ⟨h4, [], e', by rwa [List.append_nil], h5, fun rest hr => ?_⟩
        rcases parseOp_sound h1 with ⟨_, h7⟩ | ⟨b, h7, _, _⟩
        · dsimp only at h7 hr
          rw [h7] at hr
          exact lexes_eat hr
        · exfalso
          -- an operator is not followed by the end of the loop
          have hret : ∀ (fr : List Frame) (v v' : ℤ) (S' : List OpValue),
              reduce b.toOp v (fr.map Frame.toOpValue ++ ⟨.null, 0⟩ :: S) ≠ .ok (.ret v' S') := by
            intro fr
            induction fr with
            | nil =>
              intro v v' S' h
              rw [List.map_nil, List.nil_append, reduce_shift (not_red_null b)] at h
              cases h
            | cons f fr ih =>
              intro v v' S' h
              rw [List.map_cons, List.cons_append] at h
              by_cases hr : red b.toOp f.toOpValue.op
              · rw [reduce_step hr (toOp_ne_null f.b)] at h
                obtain ⟨w, _, h⟩ := bind_ok_inv h
                exact ih w v' S' h
              · rw [reduce_shift hr] at h
                cases h
          dsimp only at h7 h2
          rw [h7] at h2
          exact hret fr v _ _ h2
      | cont v' S' =>
        obtain ⟨fr', ts1, e1, rfl, hP', ht, he1, hx1, hlev⟩ := h3
        rcases parseOp_sound h1 with ⟨h7, _⟩ | ⟨b, h7, _, h8⟩
        · exfalso
          dsimp only at h7 h2
          rw [h7] at h2
          have hret : ∀ (fr : List Frame) (v v' : ℤ) (S' : List OpValue),
              reduce .null v (fr.map Frame.toOpValue ++ ⟨.null, 0⟩ :: S) ≠ .ok (.cont v' S') := by
            intro fr
            induction fr with
            | nil =>
              intro v v' S' h
              rw [List.map_nil, List.nil_append, reduce_ret (red_null _) rfl] at h
              cases h
            | cons f fr ih =>
              intro v v' S' h
              rw [List.map_cons, List.cons_append, reduce_step (red_null _) (toOp_ne_null f.b)] at h
              obtain ⟨w, _, h⟩ := bind_ok_inv h
              exact ih w v' S' h
          exact hret fr v _ _ h2
        · dsimp only at h7 h
          subst h7
          obtain ⟨y, h4, h5⟩ := bind_ok_inv h
          obtain ⟨g1, ts2, e2, g2, g3, g4⟩ := ihV _ s2 y h4
          rw [g1] at h5
          rw [opLevel_toOp] at hx1
          obtain ⟨k1, ts3, e3, k2, k3, k4⟩ := ihL y.1 (⟨b, v', ts1, e1⟩ :: fr') S y.2.2 x ts2 e2
            ⟨he1, hx1, hlev b rfl, hP'⟩ g3 g2 h5
          refine ⟨k1, .op b :: ts2 ++ ts3, e3, ?_, k3, fun rest hr => ?_⟩
          · have : toks fr ++ ts ++ (.op b :: ts2 ++ ts3) = toks (⟨b, v', ts1, e1⟩ :: fr') ++ ts2 ++ ts3 := by
              rw [← ht]; simp [toks]
            rw [this]
            exact k2
          · rw [List.cons_append, List.cons_append, List.append_assoc]
            exact h8 _ (g4 _ (k4 rest hr))

theorem sound {str : String} {v : ℤ} (h : toInt128 str = .ok v) : ∃ e, Parses str e ∧ e.eval = .ok v := by
  unfold toInt128 at h
  dsimp only at h
  obtain ⟨x, h1, h2⟩ := bind_ok_inv h
  obtain ⟨_, ts, e, g2, g3, g4⟩ := (sound_parse _).2.1 _ _ _ h1
  split at h2
  · rename_i hx
    cases h2
    refine ⟨e, ⟨ts, ?_, g2⟩, g3⟩
    have := g4 [] (by rw [List.isEmpty_iff.1 hx]; exact .nil)
    rwa [List.append_nil] at this
  · cases h2

theorem safe_toInt128 (str : String) : Safe (toInt128 str) R := by
  unfold toInt128
  dsimp only
  refine ((safe_parse _).2.1 _ _ (by omega)).bind fun x _ hx => ?_
  split
  · exact .ok hx.1
  · exact .syntax

end Calc
end PS
