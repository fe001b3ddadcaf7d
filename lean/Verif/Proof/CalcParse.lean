import Verif.Proof.CalcSafe

/-!
# The parser evaluates exactly the expressions of the grammar
-/

namespace PS
namespace Calc

open Spec I128

theorem same_assoc {b c : BinOp} (h : b.prec = c.prec) : b.isLeft ↔ c.isLeft := by
  cases b <;> cases c <;> simp_all [BinOp.prec, BinOp.isLeft]

theorem red_iff (b c : BinOp) : red b.toOp c.toOp ↔ b.prec < c.prec ∨ (b.prec = c.prec ∧ b.isLeft) := by
  unfold red
  rw [toOp_prec, toOp_prec, toOp_left]

/-! ## Completeness -/

/-- No operator of level `p` is reduced against `t`. -/
def Fits (t : Op) (p : ℕ) : Prop := ∀ b : BinOp, p ≤ b.prec → ¬ red b.toOp t
/-- Every operator of level `p` is reduced before `o`. -/
def Stops (o : Op) (p : ℕ) : Prop := ∀ b : BinOp, p ≤ b.prec → red o b.toOp

theorem Fits.mono {t : Op} {p q : ℕ} (h : Fits t p) (hq : p ≤ q) : Fits t q := fun b hb => h b (hq.trans hb)
theorem Stops.mono {o : Op} {p q : ℕ} (h : Stops o p) (hq : p ≤ q) : Stops o q := fun b hb => h b (hq.trans hb)

theorem fits_succ (o : BinOp) : Fits o.toOp (o.prec + 1) := by
  intro b hb; rw [red_iff]; omega

theorem fits_right {o : BinOp} (h : ¬ o.isLeft) : Fits o.toOp o.prec := by
  intro b hb
  rw [red_iff]
  rintro (h1 | ⟨h1, h2⟩)
  · omega
  · exact h ((same_assoc h1).1 h2)

theorem stops_left {o : BinOp} (h : o.isLeft) : Stops o.toOp o.prec := by
  intro b hb
  rw [red_iff]
  rcases Nat.lt_or_ge o.prec b.prec with h1 | h1
  · exact .inl h1
  · exact .inr ⟨by omega, h⟩

theorem stops_succ (o : BinOp) : Stops o.toOp (o.prec + 1) := by
  intro b hb; rw [red_iff]; left; omega

/-- The operator that follows. -/
inductive Next : List Tok → Op → Prop
  | nil : Next [] .null
  | rpar {r} : Next (.rpar :: r) .null
  | op {b r} : Next (.op b :: r) b.toOp

theorem Next.parse {ts : List Tok} {o : Op} {s : List Char} (h : Next ts o) (hs : Lexes s ts) :
    ∃ s2, parseOp s = .ok (o, s2) := by
  cases h with
  | nil => exact ⟨_, parseOp_nil hs⟩
  | rpar => obtain ⟨s2, h, _⟩ := parseOp_rpar hs; exact ⟨_, h⟩
  | op => obtain ⟨s2, h, _⟩ := parseOp_op hs; exact ⟨_, h⟩

/-- A pending operation is carried out before an operator that does not bind more strongly. -/
theorem pL_reduce {a v : ℤ} {b : BinOp} {S : List OpValue} {s s2 : List Char} {o : Op} (ha : R a) (hv : R v)
    (hS : WS S) (hp : parseOp s = .ok (o, s2)) (hr : red o b.toOp) :
    pL v (⟨b.toOp, a⟩ :: S) s = b.apply a v >>= fun w => pL w S s := by
  rw [pL_unfold hv (hS.push b ha), hp, ok_bind]
  dsimp only
  rw [reduce_step hr (toOp_ne_null b)]
  dsimp only
  rw [calculate_eq ha hv, bind_assoc']
  refine bind_congr_ok fun w hw => ?_
  rw [pL_unfold (apply_R ha hv hw) hS, hp, ok_bind]

theorem pL_shift {v : ℤ} {b : BinOp} {t : OpValue} {S : List OpValue} {s s2 : List Char} (hv : R v)
    (hS : WS (t :: S)) (hp : parseOp s = .ok (b.toOp, s2)) (hr : ¬ red b.toOp t.op) :
    pL v (t :: S) s = pV (⟨b.toOp, v⟩ :: t :: S) s2 >>= fun x => pL x.1 x.2.1 x.2.2 := by
  rw [pL_unfold hv hS, hp, ok_bind]
  dsimp only
  rw [reduce_shift hr, ok_bind]

/-- The number of a token. -/
theorem parseNumber_complete {s : List Char} {n : ℕ} {ts : List Tok} (h : Head s (.num n :: ts)) :
    ∃ c r, s = c :: r ∧ (c = '0' ∨ ('1' ≤ c ∧ c ≤ '9')) ∧
      ∃ s1, Lexes s1 ts ∧ parseNumber s = fit n >>= fun v => .ok (v, s1) := by
  have h10 : ∀ c, IsDigit 10 c → (c = '0' ∨ ('1' ≤ c ∧ c ≤ '9')) := by
    intro c hc
    have h1 : c ∈ "0123456789".toList := by
      obtain ⟨d, h1, h2⟩ := hc
      by_contra hcon
      unfold digitVal at h1
      rw [if_neg hcon] at h1
      split at h1
      · rename_i h3
        have : ∀ c ∈ "abcdef".toList, 10 ≤ c.toNat - 87 := by decide
        have := this c h3
        injection h1 with h1
        omega
      · split at h1
        · rename_i h3
          have : ∀ c ∈ "ABCDEF".toList, 10 ≤ c.toNat - 55 := by decide
          have := this c h3
          injection h1 with h1
          omega
        · cases h1
    have h2 : ∀ c ∈ "0123456789".toList, (c = '0' ∨ ('1' ≤ c ∧ c ≤ '9')) := by decide
    exact h2 c h1
  cases h with
  | sym hc _ => cases hc
  | @dec ds s1 _ h1 h2 h3 h =>
    cases ds with
    | nil => exact absurd rfl h1
    | cons d ds =>
      refine ⟨d, ds ++ s1, rfl, h10 d (h2 d (List.mem_cons_self ..)), s1, h, ?_⟩
      have hx : ¬ (((d :: ds) ++ s1).headD 'x' = '0' ∧ isHex ((d :: ds) ++ s1) = true) := by
        rintro ⟨_, hx⟩
        obtain ⟨a, x, c, r, e1, e2, _⟩ := isHex_iff.1 hx
        have hxd : ¬ IsDigit 10 x := by
          rintro ⟨d, hd, _⟩
          rcases e2 with rfl | rfl
          · have : digitVal 'x' = none := by decide
            rw [this] at hd; cases hd
          · have : digitVal 'X' = none := by decide
            rw [this] at hd; cases hd
        cases ds with
        | cons d' ds =>
          injection e1 with _ e1
          injection e1 with e1 _
          subst e1
          exact hxd (h2 _ (by simp))
        | nil =>
          injection e1 with _ e1
          change s1 = _ at e1
          subst e1
          have hd := head_of_lexes h
          have hsp : ¬ IsSpace x := by
            rcases e2 with rfl | rfl <;> (unfold IsSpace; decide)
          rw [eatSpaces_cons' hsp] at hd
          generalize hg : x :: c :: r = u at hd
          cases hd with
          | nil => cases hg
          | sym hc _ =>
            injection hg with hg _
            subst hg
            rcases e2 with rfl | rfl <;> cases hc
          | shl _ => injection hg with hg _; subst hg; rcases e2 with e | e <;> cases e
          | shr _ => injection hg with hg _; subst hg; rcases e2 with e | e <;> cases e
          | pow _ => injection hg with hg _; subst hg; rcases e2 with e | e <;> cases e
          | mul _ _ => injection hg with hg _; subst hg; rcases e2 with e | e <;> cases e
          | @dec ds' _ _ g1 g2 _ _ =>
            cases ds' with
            | nil => exact absurd rfl g1
            | cons d' ds' =>
              injection hg with hg _
              subst hg
              exact hxd (g2 _ (List.mem_cons_self ..))
          | hex _ _ _ _ _ => injection hg with hg _; subst hg; rcases e2 with e | e <;> cases e
      unfold parseNumber
      rw [if_neg hx]
      have h4 := parseDigits_eq 10 (by norm_num) (by norm_num) ((d :: ds) ++ s1) 0 (by norm_num)
      rw [Nat.cast_zero] at h4
      have h5 := takeWhile_append (p := dig 10) (l := d :: ds) (s := s1)
        (fun c hc => (dig_iff (by norm_num) (by norm_num) c).2 (h2 c hc))
        (fun c hc h' => h3 c hc ((dig_iff (by norm_num) (by norm_num) c).1 h'))
      rw [h4, h5.1, h5.2]
      rfl
  | @hex x ds s1 _ hx h1 h2 h3 h =>
    refine ⟨'0', x :: (ds ++ s1), rfl, .inl rfl, s1, h, ?_⟩
    have hh : isHex ('0' :: x :: (ds ++ s1)) = true := by
      cases ds with
      | nil => exact absurd rfl h1
      | cons d ds =>
        exact isHex_iff.2 ⟨'0', x, d, ds ++ s1, rfl, hx,
          (dig_iff (by norm_num) (by norm_num) d).2 (h2 d (List.mem_cons_self ..))⟩
    unfold parseNumber
    rw [if_pos ⟨rfl, hh⟩]
    have h4 := parseDigits_eq 16 (by norm_num) (by norm_num) (ds ++ s1) 0 (by norm_num)
    rw [Nat.cast_zero] at h4
    have h5 := takeWhile_append (p := dig 16) (l := ds) (s := s1)
      (fun c hc => (dig_iff (by norm_num) (by norm_num) c).2 (h2 c hc))
      (fun c hc h' => h3 c hc ((dig_iff (by norm_num) (by norm_num) c).1 h'))
    rw [List.tail_cons, List.tail_cons, h4, h5.1, h5.2]
    rfl

/-- The parser on an operand. -/
def CompleteV (ts : List Tok) (e : Expr) : Prop := ∀ rest s S, Lexes s (ts ++ rest) →
  ∃ s1, Lexes s1 rest ∧ pV S s = e.eval >>= fun v => .ok (v, S, s1)

/-- The parser on an expression, whatever is on its stack. -/
def CompleteE (p : ℕ) (ts : List Tok) (e : Expr) : Prop := ∀ rest o s t S, Lexes s (ts ++ rest) → WS (t :: S) →
  Fits t.op p → Next rest o → Stops o p →
  ∃ s1, Lexes s1 rest ∧
    (pV (t :: S) s >>= fun x => pL x.1 x.2.1 x.2.2) = e.eval >>= fun v => pL v (t :: S) s1

theorem complete_bin {p : ℕ} {o : BinOp} {l r : List Tok} {a b : Expr} (hp : p ≤ o.prec) {q q' : ℕ}
    (hq : o.prec ≤ q) (hq' : o.prec ≤ q') (hs : Stops o.toOp q) (hf : Fits o.toOp q')
    (h1 : CompleteE q l a) (h2 : CompleteE q' r b) : CompleteE p (l ++ .op o :: r) (.bin o a b) := by
  intro rest o' s t S hl hS hfit hn hst
  rw [List.append_assoc, List.cons_append] at hl
  obtain ⟨s1, hs1, e1⟩ := h1 _ _ s t S hl hS (hfit.mono (hp.trans hq)) .op hs
  obtain ⟨s2, hp2, hs2, _⟩ := parseOp_op hs1
  have key : ∀ v : ℤ, R v → ∃ s3, Lexes s3 rest ∧
      (pV (⟨o.toOp, v⟩ :: t :: S) s2 >>= fun x => pL x.1 x.2.1 x.2.2) =
        b.eval >>= fun w => pL w (⟨o.toOp, v⟩ :: t :: S) s3 := fun v hv =>
    h2 rest o' s2 ⟨o.toOp, v⟩ (t :: S) hs2 (hS.push o hv) hf hn (hst.mono (hp.trans hq'))
  rw [e1]
  cases ha : a.eval with
  | error e =>
    obtain ⟨s3, hs3, _⟩ := key 0 (by unfold R; norm_num)
    refine ⟨s3, hs3, ?_⟩
    rw [Expr.eval, ha]; rfl
  | ok v =>
    have hv := eval_R ha
    obtain ⟨s3, hs3, e3⟩ := key v hv
    obtain ⟨s4, hp4⟩ := hn.parse hs3
    refine ⟨s3, hs3, ?_⟩
    rw [ok_bind, pL_shift hv hS hp2 (hfit o hp), e3, Expr.eval, ha, ok_bind, bind_assoc']
    refine bind_congr_ok fun w hw => ?_
    exact pL_reduce hv (eval_R hw) hS hp4 (hst o hp)

theorem head_tilde {u : List Char} {ts : List Tok} (h : Head u (.tilde :: ts)) : ∃ r, u = '~' :: r ∧ Lexes r ts := by
  cases h with
  | @sym _ _ r _ hc hl => cases hc; exact ⟨r, rfl, hl⟩

theorem head_lpar {u : List Char} {ts : List Tok} (h : Head u (.lpar :: ts)) : ∃ r, u = '(' :: r ∧ Lexes r ts := by
  cases h with
  | @sym _ _ r _ hc hl => cases hc; exact ⟨r, rfl, hl⟩

theorem head_add {u : List Char} {ts : List Tok} (h : Head u (.op .add :: ts)) :
    ∃ r, u = '+' :: r ∧ Lexes r ts := by
  cases h with
  | @sym _ _ r _ hc hl => cases hc; exact ⟨r, rfl, hl⟩

theorem head_sub {u : List Char} {ts : List Tok} (h : Head u (.op .sub :: ts)) :
    ∃ r, u = '-' :: r ∧ Lexes r ts := by
  cases h with
  | @sym _ _ r _ hc hl => cases hc; exact ⟨r, rfl, hl⟩

theorem fits_null : Fits .null 0 := fun b _ => not_red_null b
theorem stops_null : Stops .null 0 := fun _ _ => red_null _

theorem complete_num {n : ℕ} : CompleteV [.num n] (.num n) := by
  intro rest s S hl
  obtain ⟨c, r, h1, h2, s1, h3, h4⟩ := parseNumber_complete (head_of_lexes hl)
  refine ⟨s1, h3, ?_⟩
  rw [pV_unfold, h1]
  dsimp only
  rw [if_pos h2, ← h1, h4, Expr.eval, bind_assoc']
  rfl

theorem complete_paren {ts : List Tok} {e : Expr} (h : CompleteE 0 ts e) : CompleteV (.lpar :: (ts ++ [.rpar])) e := by
  intro rest s S hl
  rw [List.cons_append, List.append_assoc] at hl
  obtain ⟨r, h1, h2⟩ := head_lpar (head_of_lexes hl)
  obtain ⟨s1, h3, h4⟩ := h _ _ r ⟨.null, 0⟩ S h2 (.null S) fits_null .rpar stops_null
  obtain ⟨s2, h5, h6⟩ := parseOp_rpar h3
  refine ⟨s2, h6, ?_⟩
  rw [pV_unfold, h1]
  dsimp only
  rw [if_neg (by decide), if_pos rfl, pE_unfold, h4, bind_assoc']
  refine bind_congr_ok fun v hv => ?_
  rw [pL_unfold (eval_R hv) (.null S), h5, ok_bind]
  dsimp only
  rw [reduce_ret (red_null _) rfl, ok_bind, ok_bind]
  have h7 : eatSpaces (')' :: s2) = ')' :: s2 := eatSpaces_cons' (by unfold IsSpace; decide)
  dsimp only
  rw [h7, if_neg (by simp [getCharacter])]
  rfl

theorem complete_compl {ts : List Tok} {e : Expr} (h : CompleteV ts e) : CompleteV (.tilde :: ts) (.compl e) := by
  intro rest s S hl
  obtain ⟨r, h1, h2⟩ := head_tilde (head_of_lexes hl)
  obtain ⟨s1, h3, h4⟩ := h _ r S h2
  refine ⟨s1, h3, ?_⟩
  rw [pV_unfold, h1]
  dsimp only
  rw [if_neg (by decide), if_neg (by decide), if_pos rfl, h4, Expr.eval, bind_assoc', bind_assoc']
  rfl

theorem complete_plus {ts : List Tok} {e : Expr} (h : CompleteV ts e) : CompleteV (.op .add :: ts) (.plus e) := by
  intro rest s S hl
  obtain ⟨r, h1, h2⟩ := head_add (head_of_lexes hl)
  obtain ⟨s1, h3, h4⟩ := h _ r S h2
  refine ⟨s1, h3, ?_⟩
  rw [pV_unfold, h1]
  dsimp only
  rw [if_neg (by decide), if_neg (by decide), if_neg (by decide), if_pos rfl, h4, Expr.eval]

theorem complete_neg {ts : List Tok} {e : Expr} (h : CompleteV ts e) : CompleteV (.op .sub :: ts) (.neg e) := by
  intro rest s S hl
  obtain ⟨r, h1, h2⟩ := head_sub (head_of_lexes hl)
  obtain ⟨s1, h3, h4⟩ := h _ r S h2
  refine ⟨s1, h3, ?_⟩
  rw [pV_unfold, h1]
  dsimp only
  rw [if_neg (by decide), if_neg (by decide), if_neg (by decide), if_neg (by decide), if_pos rfl, h4, Expr.eval,
    bind_assoc', bind_assoc']
  rfl

theorem complete_val {p : ℕ} {ts : List Tok} {e : Expr} (h : CompleteV ts e) : CompleteE p ts e := by
  intro rest o s t S hl _ _ _ _
  obtain ⟨s1, h1, h2⟩ := h rest s (t :: S) hl
  refine ⟨s1, h1, ?_⟩
  rw [h2, bind_assoc']
  rfl

theorem completeE {p : ℕ} {ts : List Tok} {e : Expr} (h : Exp p ts e) : CompleteE p ts e :=
  Exp.rec (motive_1 := fun ts e _ => CompleteV ts e) (motive_2 := fun p ts e _ => CompleteE p ts e)
    complete_num
    (fun _ ih => complete_paren ih)
    (fun _ ih => complete_compl ih)
    (fun _ ih => complete_plus ih)
    (fun _ ih => complete_neg ih)
    (fun _ ih => complete_val ih)
    (fun hL hp _ _ ih1 ih2 => complete_bin hp le_rfl (Nat.le_succ _) (stops_left hL) (fits_succ _) ih1 ih2)
    (fun hR hp _ _ ih1 ih2 => complete_bin hp (Nat.le_succ _) le_rfl (stops_succ _) (fits_right hR) ih1 ih2)
    h

theorem complete {str : String} {e : Expr} (h : Parses str e) : toInt128 str = e.eval := by
  obtain ⟨ts, h1, h2⟩ := h
  unfold toInt128
  dsimp only
  generalize str.toList = s at h1
  obtain ⟨s1, h3, h4⟩ := completeE h2 [] .null s ⟨.null, 0⟩ [] (by rwa [List.append_nil]) (.null []) fits_null .nil
    stops_null
  rw [pE_eq (by omega), pE_unfold, h4, bind_assoc']
  conv_rhs => rw [← bind_pure e.eval]
  refine bind_congr_ok fun v hv => ?_
  rw [pL_unfold (eval_R hv) (.null []), parseOp_nil h3, ok_bind]
  dsimp only
  rw [reduce_ret (red_null _) rfl, ok_bind, ok_bind]
  rfl

end Calc
end PS
