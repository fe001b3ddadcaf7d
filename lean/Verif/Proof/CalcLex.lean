import Mathlib.Data.List.Basic
import Verif.Proof.CalcOps

/-!
# The scanner of the calculator and the token relation
-/

namespace PS
namespace Calc

open Spec I128

/-! ## Characters -/

theorem isSpace_iff (c : Char) : isSpace c = true ↔ IsSpace c := by
  unfold isSpace IsSpace
  simp only [Bool.or_eq_true, decide_eq_true_eq, List.mem_cons, List.not_mem_nil, or_false]
  have h1 : Char.ofNat 11 = '\x0b' := by decide
  have h2 : Char.ofNat 12 = '\x0c' := by decide
  rw [h1, h2]
  tauto

theorem char_range {c : Char} {a b : Char} (h1 : a ≤ c) (h2 : c ≤ b) : a.toNat ≤ c.toNat ∧ c.toNat ≤ b.toNat :=
  ⟨h1, h2⟩

theorem char_of_toNat {c : Char} {n : ℕ} (h : c.toNat = n) : c = Char.ofNat n := by
  rw [← h, Char.ofNat_toNat]

/-- The digits and their values. -/
theorem toInteger_spec (c : Char) :
    (∃ d, digitVal c = some d ∧ toInteger c = d ∧ d < 16) ∨ (digitVal c = none ∧ toInteger c = 16) := by
  by_cases h : digitVal c = none
  · right
    refine ⟨h, ?_⟩
    unfold toInteger
    rw [if_neg, if_neg, if_neg]
    · rintro ⟨h1, h2⟩
      have h3 := char_range h1 h2
      have e1 : 'A'.toNat = 65 := rfl
      have e2 : 'F'.toNat = 70 := rfl
      rw [e1, e2] at h3
      generalize hn : c.toNat = n at h3
      rw [char_of_toNat hn] at h
      obtain ⟨h3, h4⟩ := h3
      interval_cases n <;> exact absurd h (by decide)
    · rintro ⟨h1, h2⟩
      have h3 := char_range h1 h2
      have e1 : 'a'.toNat = 97 := rfl
      have e2 : 'f'.toNat = 102 := rfl
      rw [e1, e2] at h3
      generalize hn : c.toNat = n at h3
      rw [char_of_toNat hn] at h
      obtain ⟨h3, h4⟩ := h3
      interval_cases n <;> exact absurd h (by decide)
    · rintro ⟨h1, h2⟩
      have h3 := char_range h1 h2
      have e1 : '0'.toNat = 48 := rfl
      have e2 : '9'.toNat = 57 := rfl
      rw [e1, e2] at h3
      generalize hn : c.toNat = n at h3
      rw [char_of_toNat hn] at h
      obtain ⟨h3, h4⟩ := h3
      interval_cases n <;> exact absurd h (by decide)
  · left
    have h1 : c ∈ "0123456789".toList ++ ("abcdef".toList ++ "ABCDEF".toList) := by
      unfold digitVal at h
      split at h
      · exact List.mem_append_left _ (by assumption)
      · split at h
        · exact List.mem_append_right _ (List.mem_append_left _ (by assumption))
        · split at h
          · exact List.mem_append_right _ (List.mem_append_right _ (by assumption))
          · exact absurd rfl h
    have h2 : ∀ c ∈ "0123456789".toList ++ ("abcdef".toList ++ "ABCDEF".toList),
        digitVal c = some (toInteger c) ∧ toInteger c < 16 := by decide
    exact ⟨_, (h2 c h1).1, rfl, (h2 c h1).2⟩

/-- The test of the scanner. -/
def dig (base : ℕ) (c : Char) : Bool := decide (toInteger c ≤ base - 1)

theorem dig_iff {base : ℕ} (h0 : 0 < base) (h16 : base ≤ 16) (c : Char) : dig base c = true ↔ IsDigit base c := by
  unfold dig IsDigit
  rw [decide_eq_true_eq]
  rcases toInteger_spec c with ⟨d, h1, h2, h3⟩ | ⟨h1, h2⟩
  · rw [h2, h1]
    constructor
    · intro h; exact ⟨d, rfl, by omega⟩
    · rintro ⟨d', h, h'⟩; injection h with h; omega
  · rw [h2, h1]
    constructor
    · intro h; omega
    · rintro ⟨d', h, h'⟩; cases h

theorem parseDigits_eq (base : ℕ) (h0 : 0 < base) (h16 : base ≤ 16) : ∀ (s : List Char) (v : ℕ), v < 2 ^ 127 →
    parseDigits base s v =
      (fit ((s.takeWhile (dig base)).foldl (fun v c => v * base + (digitVal c).getD 0) v : ℕ) >>= fun w =>
        .ok (w, s.dropWhile (dig base))) := by
  intro s
  induction s with
  | nil =>
    intro v hv
    rw [List.takeWhile_nil, List.foldl_nil, fit_of (by unfold R; omega)]
    rfl
  | cons c s ih =>
    intro v hv
    by_cases hd : toInteger c ≤ base - 1
    · have hd' : dig base c = true := by unfold dig; simpa using hd
      have h1 : (digitVal c).getD 0 = toInteger c := by
        rcases toInteger_spec c with ⟨d, h1, h2, h3⟩ | ⟨h1, h2⟩
        · rw [h1, h2]; rfl
        · omega
      rw [List.takeWhile_cons_of_pos hd', List.dropWhile_cons_of_pos hd', List.foldl_cons, h1, parseDigits,
        if_pos hd]
      have hmono : ∀ (l : List Char) (a : ℕ),
          a ≤ l.foldl (fun v c => v * base + (digitVal c).getD 0) a := by
        intro l
        induction l with
        | nil => intro a; exact le_rfl
        | cons x l ih =>
          intro a
          refine le_trans ?_ (ih _)
          exact (Nat.le_mul_of_pos_right a h0).trans (Nat.le_add_right _ _)
      have h2 := hmono (s.takeWhile (dig base)) (v * base + toInteger c)
      rw [chk_eq_fit]
      by_cases h3 : v * base < 2 ^ 127
      · rw [fit_of (by unfold R; have := Int.natCast_nonneg (v * base); push_cast at this; exact
          ⟨by omega, by exact_mod_cast h3⟩), ok_bind, chk_eq_fit]
        by_cases h4 : v * base + toInteger c < 2 ^ 127
        · rw [fit_of (by unfold R; have := Int.natCast_nonneg (v * base); push_cast at this; exact
            ⟨by omega, by exact_mod_cast h4⟩), ok_bind]
          have := ih (v * base + toInteger c) h4
          push_cast at this ⊢
          exact this
        · rw [fit_not (by unfold R; push Not; intro _; exact_mod_cast Nat.le_of_not_lt h4), error_bind, fit_not,
            error_bind]
          unfold R; push Not; intro _; exact_mod_cast (Nat.le_of_not_lt h4).trans h2
      · rw [fit_not (by unfold R; push Not; intro _; exact_mod_cast Nat.le_of_not_lt h3), error_bind, fit_not,
            error_bind]
        unfold R; push Not; intro _; exact_mod_cast (Nat.le_of_not_lt h3).trans ((Nat.le_add_right _ _).trans h2)
    · have hd' : ¬ dig base c = true := by unfold dig; simpa using hd
      rw [List.takeWhile_cons_of_neg hd', List.dropWhile_cons_of_neg hd', List.foldl_nil, parseDigits, if_neg hd,
        fit_of (by unfold R; omega)]
      rfl

theorem takeWhile_append {p : Char → Bool} {l s : List Char} (h1 : ∀ d ∈ l, p d = true)
    (h2 : ∀ c, s.head? = some c → ¬ p c = true) :
    (l ++ s).takeWhile p = l ∧ (l ++ s).dropWhile p = s := by
  induction l with
  | nil =>
    cases s with
    | nil => exact ⟨rfl, rfl⟩
    | cons c s =>
      have := h2 c rfl
      exact ⟨List.takeWhile_cons_of_neg this, List.dropWhile_cons_of_neg this⟩
  | cons a l ih =>
    have h3 := h1 a (List.mem_cons_self ..)
    have h4 := ih (fun d hd => h1 d (List.mem_cons_of_mem _ hd))
    rw [List.cons_append, List.takeWhile_cons_of_pos h3, List.dropWhile_cons_of_pos h3, h4.1, h4.2]
    exact ⟨rfl, rfl⟩

/-! ## White space -/

theorem eatSpaces_nil : eatSpaces [] = [] := rfl

theorem eatSpaces_cons {c : Char} {s : List Char} (h : IsSpace c) : eatSpaces (c :: s) = eatSpaces s :=
  List.dropWhile_cons_of_pos ((isSpace_iff c).2 h)

theorem eatSpaces_cons' {c : Char} {s : List Char} (h : ¬ IsSpace c) : eatSpaces (c :: s) = c :: s :=
  List.dropWhile_cons_of_neg (fun h' => h ((isSpace_iff c).1 h'))

theorem eatSpaces_len (s : List Char) : (eatSpaces s).length ≤ s.length :=
  (List.dropWhile_suffix _).length_le

theorem lexes_eat {ts : List Tok} : ∀ {s : List Char}, Lexes (eatSpaces s) ts → Lexes s ts := by
  intro s
  induction s with
  | nil => exact id
  | cons c s ih =>
    intro h
    by_cases hc : IsSpace c
    · rw [eatSpaces_cons hc] at h
      exact .space hc (ih h)
    · rwa [eatSpaces_cons' hc] at h

theorem eat_idem (s : List Char) : eatSpaces (eatSpaces s) = eatSpaces s := by
  induction s with
  | nil => rfl
  | cons c s ih =>
    by_cases hc : IsSpace c
    · rw [eatSpaces_cons hc, ih]
    · rw [eatSpaces_cons' hc, eatSpaces_cons' hc]

theorem sym_not_space {c : Char} {t : Tok} (h : Sym c t) : ¬ IsSpace c := by
  unfold IsSpace
  cases h <;> decide

theorem digit_not_space {base : ℕ} {c : Char} (h : IsDigit base c) : ¬ IsSpace c := by
  intro hs
  obtain ⟨d, h1, h2⟩ := h
  have h3 : ∀ c ∈ [' ', '\t', '\n', '\r', '\x0b', '\x0c'], digitVal c = none := by decide
  rw [h3 c hs] at h1
  cases h1

/-- The ways in which a list of tokens begins, the white space being removed. -/
inductive Head : List Char → List Tok → Prop
  | nil : Head [] []
  | sym {c t s ts} : Sym c t → Lexes s ts → Head (c :: s) (t :: ts)
  | shl {s ts} : Lexes s ts → Head ('<' :: '<' :: s) (.op .shl :: ts)
  | shr {s ts} : Lexes s ts → Head ('>' :: '>' :: s) (.op .shr :: ts)
  | pow {s ts} : Lexes s ts → Head ('*' :: '*' :: s) (.op .pow :: ts)
  | mul {s ts} : s.head? ≠ some '*' → Lexes s ts → Head ('*' :: s) (.op .mul :: ts)
  | dec {ds s ts} : ds ≠ [] → (∀ d ∈ ds, IsDigit 10 d) → (∀ c, s.head? = some c → ¬ IsDigit 10 c) → Lexes s ts →
      Head (ds ++ s) (.num (ofDigits 10 ds) :: ts)
  | hex {x ds s ts} : x = 'x' ∨ x = 'X' → ds ≠ [] → (∀ d ∈ ds, IsDigit 16 d) →
      (∀ c, s.head? = some c → ¬ IsDigit 16 c) → Lexes s ts →
      Head ('0' :: x :: (ds ++ s)) (.num (ofDigits 16 ds) :: ts)

theorem head_of_lexes {s : List Char} {ts : List Tok} (h : Lexes s ts) : Head (eatSpaces s) ts := by
  have hsp : ∀ c : Char, c ∈ ['<', '>', '*', '0'] → ¬ IsSpace c := by unfold IsSpace; decide
  induction h with
  | nil => exact .nil
  | space hc _ ih => rw [eatSpaces_cons hc]; exact ih
  | sym hc h _ => rw [eatSpaces_cons' (sym_not_space hc)]; exact .sym hc h
  | shl h _ => rw [eatSpaces_cons' (hsp _ (by decide))]; exact .shl h
  | shr h _ => rw [eatSpaces_cons' (hsp _ (by decide))]; exact .shr h
  | pow h _ => rw [eatSpaces_cons' (hsp _ (by decide))]; exact .pow h
  | mul hm h _ => rw [eatSpaces_cons' (hsp _ (by decide))]; exact .mul hm h
  | @dec ds s ts h1 h2 h3 h _ =>
    cases ds with
    | nil => exact absurd rfl h1
    | cons d ds =>
      rw [List.cons_append, eatSpaces_cons' (digit_not_space (h2 d (List.mem_cons_self ..)))]
      exact .dec (ds := d :: ds) h1 h2 h3 h
  | hex hx h1 h2 h3 h _ => rw [eatSpaces_cons' (hsp _ (by decide))]; exact .hex hx h1 h2 h3 h

/-! ## Operators -/

theorem parseOp_eat (s : List Char) : parseOp s = parseOp (eatSpaces s) := by
  unfold parseOp; rw [eat_idem]

theorem parseOp_op {s : List Char} {o : BinOp} {ts : List Tok} (h : Lexes s (.op o :: ts)) :
    ∃ s2, parseOp s = .ok (o.toOp, s2) ∧ Lexes s2 ts ∧ s2.length < s.length := by
  have h1 := head_of_lexes h
  have hlen := eatSpaces_len s
  rw [parseOp_eat]
  generalize eatSpaces s = u at h1 hlen
  cases h1 with
  | @sym _ _ s2 _ hc hl => cases hc <;> exact ⟨s2, rfl, hl, by simp only [List.length_cons] at hlen; omega⟩
  | @shl s2 _ hl => exact ⟨s2, rfl, hl, by simp only [List.length_cons] at hlen; omega⟩
  | @shr s2 _ hl => exact ⟨s2, rfl, hl, by simp only [List.length_cons] at hlen; omega⟩
  | @pow s2 _ hl => exact ⟨s2, rfl, hl, by simp only [List.length_cons] at hlen; omega⟩
  | @mul s2 _ hm hl =>
    refine ⟨s2, ?_, hl, by simp only [List.length_cons] at hlen; omega⟩
    have : getCharacter s2 ≠ '*' := by
      cases s2 with
      | nil => decide
      | cons c r =>
        intro hc
        apply hm
        change c = '*' at hc
        rw [hc]; rfl
    change (if getCharacter s2 ≠ '*' then pure (Op.mul, s2) else pure (Op.pow, s2.tail) : M _) = _
    rw [if_pos this]
    rfl

theorem parseOp_nil {s : List Char} (h : Lexes s []) : parseOp s = .ok (.null, []) := by
  have h1 := head_of_lexes h
  rw [parseOp_eat]
  generalize eatSpaces s = u at h1
  cases h1
  rfl

theorem parseOp_rpar {s : List Char} {ts : List Tok} (h : Lexes s (.rpar :: ts)) :
    ∃ s2, parseOp s = .ok (.null, ')' :: s2) ∧ Lexes s2 ts := by
  have h1 := head_of_lexes h
  rw [parseOp_eat]
  generalize eatSpaces s = u at h1
  cases h1 with
  | @sym _ _ s2 _ hc hl =>
    cases hc
    exact ⟨s2, rfl, hl⟩

/-- What `parseOp` accepts is the operator it returns. -/
theorem parseOp_sound {s s2 : List Char} {o : Op} (h : parseOp s = .ok (o, s2)) :
    (o = .null ∧ s2 = eatSpaces s) ∨
    ∃ b : BinOp, o = b.toOp ∧ s2.length < s.length ∧ ∀ ts, Lexes s2 ts → Lexes s (.op b :: ts) := by
  have hlen := eatSpaces_len s
  suffices H : (o = .null ∧ s2 = eatSpaces s) ∨
      ∃ b : BinOp, o = b.toOp ∧ s2.length < (eatSpaces s).length ∧
        ∀ ts, Lexes s2 ts → Lexes (eatSpaces s) (.op b :: ts) by
    rcases H with H | ⟨b, h1, h2, h3⟩
    · exact .inl H
    · exact .inr ⟨b, h1, h2.trans_le hlen, fun ts h => lexes_eat (h3 ts h)⟩
  unfold parseOp at h
  generalize eatSpaces s = u at h ⊢
  cases u with
  | nil => left; cases h; exact ⟨rfl, rfl⟩
  | cons c u =>
    dsimp only [getCharacter, List.headD_cons, List.tail_cons] at h
    split at h
    · cases h; exact .inr ⟨.or, rfl, by simp, fun ts h => .sym .or h⟩
    · cases h; exact .inr ⟨.and, rfl, by simp, fun ts h => .sym .and h⟩
    · right
      cases u with
      | nil => cases h
      | cons c u =>
        unfold expect2 at h
        dsimp only at h
        split at h
        · rename_i hc
          subst hc
          cases h
          exact ⟨.shl, rfl, by simp; omega, fun ts h => .shl h⟩
        · cases h
    · right
      cases u with
      | nil => cases h
      | cons c u =>
        unfold expect2 at h
        dsimp only at h
        split at h
        · rename_i hc
          subst hc
          cases h
          exact ⟨.shr, rfl, by simp; omega, fun ts h => .shr h⟩
        · cases h
    · cases h; exact .inr ⟨.add, rfl, by simp, fun ts h => .sym .add h⟩
    · cases h; exact .inr ⟨.sub, rfl, by simp, fun ts h => .sym .sub h⟩
    · cases h; exact .inr ⟨.div, rfl, by simp, fun ts h => .sym .div h⟩
    · cases h; exact .inr ⟨.mod, rfl, by simp, fun ts h => .sym .mod h⟩
    · right
      change (if getCharacter u ≠ '*' then pure (Op.mul, u) else pure (Op.pow, u.tail) : M _) = _ at h
      by_cases hm : getCharacter u ≠ '*'
      · rw [if_pos hm] at h
        cases h
        refine ⟨.mul, rfl, by simp, fun ts h => .mul ?_ h⟩
        intro hh
        cases s2 with
        | nil => cases hh
        | cons c u =>
          injection hh with hh
          exact hm hh
      · rw [if_neg hm] at h
        cases u with
        | nil => exact absurd (by decide) hm
        | cons c u =>
          have : c = '*' := not_not.1 hm
          subst this
          cases h
          exact ⟨.pow, rfl, by simp; omega, fun ts h => .pow h⟩
    · cases h; exact .inr ⟨.pow, rfl, by simp, fun ts h => .sym .caret h⟩
    · cases h; exact .inr ⟨.exp, rfl, by simp, fun ts h => .sym .e h⟩
    · cases h; exact .inr ⟨.exp, rfl, by simp, fun ts h => .sym .E h⟩
    · cases h; exact .inl ⟨rfl, rfl⟩

/-- `parseOp` throws or succeeds. -/
theorem parseOp_err (s : List Char) : (∃ r, parseOp s = .ok r) ∨ parseOp s = syntaxError := by
  have he : ∀ c s, (∃ r, expect2 c s = .ok r) ∨ expect2 c s = syntaxError := by
    intro c s
    unfold expect2
    split
    · split
      · exact .inl ⟨_, rfl⟩
      · exact .inr rfl
    · exact .inr rfl
  unfold parseOp
  dsimp only
  split <;> try exact .inl ⟨_, rfl⟩
  · rcases he '<' (eatSpaces s) with ⟨r, h⟩ | h <;> rw [h]
    · exact .inl ⟨_, rfl⟩
    · exact .inr rfl
  · rcases he '>' (eatSpaces s) with ⟨r, h⟩ | h <;> rw [h]
    · exact .inl ⟨_, rfl⟩
    · exact .inr rfl
  · split <;> exact .inl ⟨_, rfl⟩

end Calc
end PS
