import Verif.Spec.Main
import Verif.Props.Calculator

/-!
# The command line
-/

namespace PS.Main
open Spec Calc Calc.Spec

theorem lookup_mem {α β : Type} [BEq α] [LawfulBEq α] {l : List (α × β)} {a : α} {b : β} (h : l.lookup a = some b) :
    (a, b) ∈ l := by
  induction l with
  | nil => simp at h
  | cons p l ih =>
    obtain ⟨k, v⟩ := p
    rw [List.lookup_cons] at h
    by_cases hk : a == k
    · rw [hk] at h
      simp only [Option.some.injEq] at h
      rw [beq_iff_eq] at hk
      subst hk h
      exact List.mem_cons_self
    · simp only [Bool.not_eq_true] at hk
      rw [hk] at h
      exact List.mem_cons_of_mem _ (ih h)

theorem optionMap_spells : ∀ p ∈ optionMap, ∃ n ∈ names p.2, p.1 = n.toList := by decide +kernel

theorem spells_optionMap : ∀ o : Opt, ∀ n ∈ names o, optionMap.lookup n.toList = some o := by
  intro o; cases o <;> decide +kernel

theorem lookup_iff {s : List Char} {o : Opt} : optionMap.lookup s = some o ↔ Spells s o := by
  constructor
  · intro h
    exact optionMap_spells _ (lookup_mem h)
  · rintro ⟨n, hn, rfl⟩
    exact spells_optionMap o n hn

theorem optionMap_no_eq : ∀ p ∈ optionMap, '=' ∉ p.1 ∧ p.1 ≠ [] := by decide +kernel

theorem Spec.Spells.facts {s : List Char} {o : Opt} (h : Spells s o) : '=' ∉ s ∧ s ≠ [] :=
  optionMap_no_eq _ (lookup_mem (lookup_iff.2 h))

theorem optionMap_head : ∀ p ∈ optionMap, p.1.head? = some '-' := by decide +kernel

theorem Spec.Spells.head {s : List Char} {o : Opt} (h : Spells s o) : s.head? = some '-' :=
  optionMap_head _ (lookup_mem (lookup_iff.2 h))

theorem lookup_none {s : List Char} (h : ∀ o, ¬ Spells s o) : optionMap.lookup s = none := by
  cases hl : optionMap.lookup s with
  | none => rfl
  | some o => exact absurd (lookup_iff.1 hl) (h o)

theorem delim_iff (c : Char) : c ∈ "=0123456789".toList ↔ c = '=' ∨ IsDecimal c := by
  unfold IsDecimal
  constructor
  · intro h
    have : ∀ c ∈ "=0123456789".toList, c = '=' ∨ ('0' ≤ c ∧ c ≤ '9') := by decide +kernel
    exact this c h
  · rintro (rfl | ⟨h1, h2⟩)
    · decide
    · have h3 : 48 ≤ c.toNat := h1
      have h4 : c.toNat ≤ 57 := h2
      have h5 : c = Char.ofNat c.toNat := (Char.ofNat_toNat c).symm
      rw [h5]
      generalize c.toNat = n at *
      interval_cases n <;> decide

theorem find_none {s : List Char} (h : ∀ c ∈ s, c ≠ '=' ∧ ¬ IsDecimal c) : findDelimiter s = none := by
  unfold findDelimiter
  rw [List.findIdx?_eq_none_iff]
  intro c hc
  have := h c hc
  simp only [decide_eq_false_iff_not]
  rw [delim_iff]
  tauto

theorem find_app {s v : List Char} {c : Char} (h : ∀ c ∈ s, c ≠ '=' ∧ ¬ IsDecimal c) (hc : c = '=' ∨ IsDecimal c) :
    findDelimiter (s ++ c :: v) = some s.length := by
  unfold findDelimiter
  induction s with
  | nil =>
    rw [List.nil_append, List.findIdx?_cons, if_pos (by simpa using (delim_iff c).2 hc)]
    rfl
  | cons a s ih =>
    rw [List.cons_append, List.findIdx?_cons, if_neg, ih (fun c hc => h c (List.mem_cons_of_mem _ hc))]
    · rfl
    · have := h a List.mem_cons_self
      simp only [decide_eq_true_eq]
      rw [delim_iff]
      tauto

/-- Every list has a first delimiter or none. -/
theorem split (s : List Char) : (∀ c ∈ s, c ≠ '=' ∧ ¬ IsDecimal c) ∨
    ∃ p c v, s = p ++ c :: v ∧ (∀ c ∈ p, c ≠ '=' ∧ ¬ IsDecimal c) ∧ (c = '=' ∨ IsDecimal c) := by
  induction s with
  | nil => left; intro c hc; simp at hc
  | cons a s ih =>
    by_cases ha : a = '=' ∨ IsDecimal a
    · exact Or.inr ⟨[], a, s, rfl, by intro c hc; simp at hc, ha⟩
    · push Not at ha
      rcases ih with h | ⟨p, c, v, rfl, h1, h2⟩
      · left
        intro c hc
        rcases List.mem_cons.1 hc with rfl | hc
        · exact ha
        · exact h c hc
      · right
        refine ⟨a :: p, c, v, rfl, fun d hd => ?_, h2⟩
        rcases List.mem_cons.1 hd with rfl | hd
        · exact ha
        · exact h1 d hd

/-- `makeOption` without the delimiter search. -/
def resolve (id value : List Char) : Opt × List Char :=
  match optionMap.lookup (if id = [] ∧ value ≠ [] then "--number".toList else id) with
  | some o => (o, value)
  | none => (.help, value)

theorem makeOption_spelled {s : List Char} {o : Opt} (h : Spells s o) : makeOption s = (o, []) := by
  have h1 := lookup_iff.2 h
  unfold makeOption
  rw [h1]
  simp only [Option.isNone_some, Bool.false_eq_true, if_false, ne_eq, not_true, and_false]
  rw [h1]

theorem makeOption_plain {s : List Char} (h : ∀ o, ¬ Spells s o) (hd : ∀ c ∈ s, c ≠ '=' ∧ ¬ IsDecimal c) :
    makeOption s = (.help, []) := by
  have h1 := lookup_none h
  unfold makeOption
  rw [h1, find_none hd]
  simp only [Option.isNone_none, if_true, ne_eq, not_true, and_false, if_false]
  rw [h1]

theorem makeOption_split {p v : List Char} {c : Char} (h : ∀ o, ¬ Spells (p ++ c :: v) o)
    (hp : ∀ c ∈ p, c ≠ '=' ∧ ¬ IsDecimal c) (hc : c = '=' ∨ IsDecimal c) :
    makeOption (p ++ c :: v) = resolve p (if c = '=' then v else c :: v) := by
  have h1 := lookup_none h
  have h2 : (p ++ c :: v)[p.length]? = some c := by simp
  have h3 : (p ++ c :: v).take p.length = p := by simp
  have h4 : (p ++ c :: v).drop (p.length + if some c = some '=' then 1 else 0) = if c = '=' then v else c :: v := by
    by_cases he : c = '='
    · subst he
      simp [List.drop_append]
    · rw [if_neg (by simpa using he), if_neg he]
      simp
  unfold makeOption resolve
  rw [h1, find_app hp hc]
  simp only [Option.isNone_none, if_true]
  rw [h2, h3, h4]
  rfl

theorem not_spells_eq {p v : List Char} (o : Opt) : ¬ Spells (p ++ '=' :: v) o := by
  intro h
  exact h.facts.1 (by simp)

theorem not_spells_digit {c : Char} {v : List Char} (hc : IsDecimal c) (o : Opt) : ¬ Spells (c :: v) o := by
  intro h
  have := h.head
  simp only [List.head?_cons, Option.some.injEq] at this
  subst this
  revert hc
  unfold IsDecimal
  decide

theorem not_spells_eq' {v : List Char} (o : Opt) : ¬ Spells ('=' :: v) o := not_spells_eq (p := []) o

theorem resolve_spelled {s v : List Char} {o : Opt} (h : Spells s o) : resolve s v = (o, v) := by
  unfold resolve
  rw [if_neg (fun hc => h.facts.2 hc.1), lookup_iff.2 h]

theorem resolve_nil {v : List Char} (h : v ≠ []) : resolve [] v = (.number, v) := by
  unfold resolve
  rw [if_pos ⟨rfl, h⟩, show optionMap.lookup "--number".toList = some .number from by decide +kernel]

theorem not_eq_of_decimal {c : Char} (h : IsDecimal c) : c ≠ '=' := by
  rintro rfl
  revert h
  unfold IsDecimal
  decide

/-- The parser recognizes what an argument means. -/
theorem makeOption_of_names {s v : List Char} {o : Opt} (h : Names s o v) : makeOption s = (o, v) := by
  cases h with
  | plain h => exact makeOption_spelled h
  | @eq s _ _ h hd =>
    have h2 : ∀ c ∈ s, c ≠ '=' ∧ ¬ IsDecimal c := fun c hc =>
      ⟨fun he => h.facts.1 (he ▸ hc), hd c hc⟩
    rw [makeOption_split (fun o => not_spells_eq o) h2 (Or.inl rfl), if_pos rfl, resolve_spelled h]
  | @digit s _ c v h hd hc hn =>
    have h2 : ∀ c ∈ s, c ≠ '=' ∧ ¬ IsDecimal c := fun c hc =>
      ⟨fun he => h.facts.1 (he ▸ hc), hd c hc⟩
    rw [makeOption_split hn h2 (Or.inr hc), if_neg (not_eq_of_decimal hc), resolve_spelled h]
  | @number c v hc =>
    have := makeOption_split (p := []) (v := v) (c := c) (not_spells_digit hc) (by simp) (Or.inr hc)
    rw [List.nil_append] at this
    rw [this, if_neg (not_eq_of_decimal hc), resolve_nil (by simp)]
  | number_eq hv =>
    have := makeOption_split (p := []) (v := v) (c := '=') (fun o => not_spells_eq' o) (by simp) (Or.inl rfl)
    rw [List.nil_append] at this
    rw [this, if_pos rfl, resolve_nil hv]

/-- What means nothing leads to the help screen. -/
theorem makeOption_of_not {s : List Char} (h : ∀ o v, ¬ Names s o v) : (makeOption s).1 = .help := by
  have hs : ∀ o, ¬ Spells s o := fun o ho => h _ _ (.plain ho)
  rcases split s with hd | ⟨p, c, v, rfl, hp, hc⟩
  · rw [makeOption_plain hs hd]
  · rw [makeOption_split hs hp hc]
    have hp0 : p ≠ [] ∨ (if c = '=' then v else c :: v) = [] := by
      by_contra hcon
      push Not at hcon
      obtain ⟨rfl, hv⟩ := hcon
      by_cases he : c = '='
      · subst he
        rw [if_pos rfl] at hv
        exact h _ _ (.number_eq hv)
      · rcases hc with hc | hc
        · exact he hc
        · exact h _ _ (.number hc)
    have hl : optionMap.lookup p = none := by
      refine lookup_none (fun o ho => ?_)
      by_cases he : c = '='
      · subst he
        exact h _ _ (.eq ho (fun c hc => (hp c hc).2))
      · exact h _ _ (.digit ho (fun c hc => (hp c hc).2) (hc.resolve_left he) hs)
    unfold resolve
    rw [if_neg, hl]
    rintro ⟨h1, h2⟩
    rcases hp0 with h3 | h3
    · exact h3 h1
    · exact h2 h3

theorem Spec.Names.unique {s v v' : List Char} {o o' : Opt} (h : Names s o v) (h' : Names s o' v') : o = o' ∧ v = v' := by
  have := (makeOption_of_names h).symm.trans (makeOption_of_names h')
  exact ⟨(Prod.mk.inj this).1, (Prod.mk.inj this).2⟩

theorem Spec.IsValue.unique {v : List Char} {x x' : ℤ} (h : IsValue v x) (h' : IsValue v x') : x = x' := by
  obtain ⟨t, h1, h2⟩ := h
  obtain ⟨t', h3, h4⟩ := h'
  have := C39_unambiguous h1 h3
  rw [h2, h4] at this
  exact Except.ok.inj this

theorem toInt128?_of_value {v : List Char} {x : ℤ} (h : IsValue v x) : toInt128? v = .ok (some x) := by
  obtain ⟨t, h1, h2⟩ := h
  unfold toInt128?
  rw [C39_eval h1, h2]

theorem value_of_toInt128? {v : List Char} {x : ℤ} (h : toInt128? v = .ok (some x)) : IsValue v x := by
  unfold toInt128? at h
  cases hr : Calc.toInt128 (String.ofList v) with
  | ok y =>
    rw [hr] at h
    simp only [Except.ok.injEq, Option.some.injEq] at h
    subst h
    exact C40_sound hr
  | error err =>
    rw [hr] at h
    cases err <;> simp at h

/-- No value: an exception, or undefined behaviour of the calculator. -/
theorem toInt128?_of_not {v : List Char} (h : ∀ x, ¬ IsValue v x) :
    toInt128? v = .ok none ∨ toInt128? v = .error .overflow ∨ toInt128? v = .error .shift := by
  rcases C40_total (String.ofList v) with ⟨x, hx, _⟩ | ⟨err, herr, hrej⟩
  · exact absurd (C40_sound hx) (h x)
  · unfold toInt128?
    rw [herr]
    revert hrej
    cases err <;> simp [Calc.Rejected]

theorem toInt_eq (n : ℤ) : toInt n = wrap32 n := by
  unfold toInt wrap32
  rw [Int.bmod_def]
  split <;> omega

theorem inBetween_eq (a b c : ℤ) : inBetween a b c = clamp a b c := rfl

/-! ### The loop -/

theorem Spec.Last.snoc {β : Type} {P : List Char → β → Prop} {args : List (List Char)} {a : List Char} {b : β} (h : P a b) :
    Last P (args ++ [a]) (some b) := ⟨args, a, [], rfl, h, by simp⟩

theorem Spec.Last.keep {β : Type} {P : List Char → β → Prop} {args : List (List Char)} {a : List Char} {r : Option β}
    (h : ∀ b, ¬ P a b) (hl : Last P args r) : Last P (args ++ [a]) r := by
  cases r with
  | none =>
    intro c hc
    rcases List.mem_append.1 hc with hc | hc
    · exact hl c hc
    · rw [List.mem_singleton] at hc
      subst hc
      exact h
  | some b =>
    obtain ⟨pre, d, post, rfl, h1, h2⟩ := hl
    refine ⟨pre, d, post ++ [a], by simp, h1, fun c hc => ?_⟩
    rcases List.mem_append.1 hc with hc | hc
    · exact h2 c hc
    · rw [List.mem_singleton] at hc
      subst hc
      exact h

theorem Spec.Last.unique {β : Type} {P : List Char → β → Prop} {args : List (List Char)} {r r' : Option β}
    (hf : ∀ a b b', P a b → P a b' → b = b') (h : Last P args r) (h' : Last P args r') : r = r' := by
  cases r with
  | none =>
    cases r' with
    | none => rfl
    | some b =>
      obtain ⟨pre, a, post, rfl, h1, _⟩ := h'
      exact absurd h1 (h a (by simp) b)
  | some b =>
    obtain ⟨pre, a, post, rfl, h1, h2⟩ := h
    cases r' with
    | none => exact absurd h1 (h' a (by simp) b)
    | some b' =>
      obtain ⟨pre', a', post', he, h3, h4⟩ := h'
      rcases List.append_eq_append_iff.1 he with ⟨l, rfl, hl⟩ | ⟨l, rfl, hl⟩
      · cases l with
        | nil =>
          simp only [List.nil_append, List.cons.injEq] at hl
          obtain ⟨rfl, rfl⟩ := hl
          rw [hf _ _ _ h1 h3]
        | cons d l =>
          simp only [List.cons_append, List.cons.injEq] at hl
          obtain ⟨rfl, rfl⟩ := hl
          exact absurd h3 (h2 a' (by simp) b')
      · cases l with
        | nil =>
          simp only [List.nil_append, List.cons.injEq] at hl
          obtain ⟨rfl, rfl⟩ := hl
          rw [hf _ _ _ h1 h3]
        | cons d l =>
          simp only [List.cons_append, List.cons.injEq] at hl
          obtain ⟨rfl, rfl⟩ := hl
          exact absurd h1 (h4 a (by simp) b)

abbrev PAlg (a : List Char) (o : Opt) : Prop := IsAlgorithm o ∧ ∃ v, Names a o v
abbrev PThr (a : List Char) (n : ℤ) : Prop := ∃ v, Names a .threads v ∧ IsValue v n
abbrev PAlpha (e : Env) (a : List Char) (q : Dbl) : Prop := ∃ v, Names a .alpha v ∧ e.toDouble v = some q
abbrev PPrec (a : List Char) (n : ℤ) : Prop := ∃ v, Names a .status v ∧ v ≠ [] ∧ IsValue v n

open scoped Classical in
/-- What the arguments `pre` have left in the variables. -/
structure Inv (e : Env) (pre : List (List Char)) (st : St) : Prop where
  numbers : List.Forall₂ (fun a x => ∃ v, Names a .number v ∧ IsValue v x)
    (pre.filter (fun a => ∃ v, Names a .number v)) st.numbers
  x : st.pco.x = -1
  algorithm : ∃ r, Last PAlg pre r ∧ st.pco.option = r.getD .pi
  time : st.pco.time = true ↔ ∃ a ∈ pre, ∃ v, Names a .time v ∨ Names a .status v
  print : st.set.print = true ↔ ∃ a ∈ pre, ∃ v, Names a .status v
  threads : ∃ r, Last PThr pre r ∧
    st.set.threads.threads = match r with | some n => clamp 1 (wrap32 n) e.ompMax | none => 0
  alpha : ∃ r, Last (PAlpha e) pre r ∧ st.set.alpha = r.getD (.fin (-1))
  precision : ∃ r, Last PPrec pre r ∧
    st.set.statusPrecision = match r with | some n => clamp 0 (wrap32 n) 5 | none => -1

theorem Inv.init (e : Env) : Inv e [] {} where
  numbers := by simp
  x := rfl
  algorithm := ⟨none, by simp [Last], rfl⟩
  time := by simp
  print := by simp
  threads := ⟨none, by simp [Last], rfl⟩
  alpha := ⟨none, by simp [Last], rfl⟩
  precision := ⟨none, by simp [Last], rfl⟩

section
variable {e : Env} {pre : List (List Char)} {st : St} {a v : List Char} {o : Opt}

open scoped Classical in
theorem filter_snoc_not (h : Names a o v) (ho : o ≠ .number) :
    (pre ++ [a]).filter (fun a => ∃ v, Names a .number v) = pre.filter (fun a => ∃ v, Names a .number v) := by
  have : ¬ ∃ v, Names a .number v := fun ⟨v', h'⟩ => ho (h.unique h').1
  rw [List.filter_append]
  simp [this]

theorem mem_snoc {P : List Char → Prop} : (∃ b ∈ pre ++ [a], P b) ↔ (∃ b ∈ pre, P b) ∨ P a := by
  constructor
  · rintro ⟨b, hb, h⟩
    rcases List.mem_append.1 hb with hb | hb
    · exact Or.inl ⟨b, hb, h⟩
    · rw [List.mem_singleton] at hb
      subst hb
      exact Or.inr h
  · rintro (⟨b, hb, h⟩ | h)
    · exact ⟨b, List.mem_append_left _ hb, h⟩
    · exact ⟨a, by simp, h⟩

/-- An argument whose meaning is `o` does not concern the other variables. -/
theorem Inv.other (hi : Inv e pre st) (h : Names a o v) :
    (o ≠ .number → List.Forall₂ (fun a x => ∃ v, Names a .number v ∧ IsValue v x)
      (@List.filter (List Char) (fun a => @decide (∃ v, Names a .number v) (Classical.propDecidable _)) (pre ++ [a]))
      st.numbers) ∧
    (¬ IsAlgorithm o → ∃ r, Last PAlg (pre ++ [a]) r ∧ st.pco.option = r.getD .pi) ∧
    (o ≠ .time → o ≠ .status →
      (st.pco.time = true ↔ ∃ b ∈ pre ++ [a], ∃ v, Names b .time v ∨ Names b .status v)) ∧
    (o ≠ .status → (st.set.print = true ↔ ∃ b ∈ pre ++ [a], ∃ v, Names b .status v)) ∧
    (o ≠ .threads → ∃ r, Last PThr (pre ++ [a]) r ∧
      st.set.threads.threads = match r with | some n => clamp 1 (wrap32 n) e.ompMax | none => 0) ∧
    (o ≠ .alpha → ∃ r, Last (PAlpha e) (pre ++ [a]) r ∧ st.set.alpha = r.getD (.fin (-1))) ∧
    ((o ≠ .status ∨ v = []) → ∃ r, Last PPrec (pre ++ [a]) r ∧
      st.set.statusPrecision = match r with | some n => clamp 0 (wrap32 n) 5 | none => -1) := by
  refine ⟨fun ho => ?_, fun ho => ?_, fun ho ho' => ?_, fun ho => ?_, fun ho => ?_, fun ho => ?_, fun ho => ?_⟩
  · rw [filter_snoc_not h ho]
    exact hi.numbers
  · obtain ⟨r, h1, h2⟩ := hi.algorithm
    exact ⟨r, Last.keep (fun b hb => ho (by obtain ⟨hb, v', h'⟩ := hb; rw [(h.unique h').1]; exact hb)) h1, h2⟩
  · rw [hi.time, mem_snoc (P := fun b => ∃ v, Names b .time v ∨ Names b .status v)]
    have : ¬ ∃ v, Names a .time v ∨ Names a .status v := by
      rintro ⟨v', h' | h'⟩
      · exact ho (h.unique h').1
      · exact ho' (h.unique h').1
    exact (or_iff_left this).symm
  · rw [hi.print, mem_snoc (P := fun b => ∃ v, Names b .status v)]
    have : ¬ ∃ v, Names a .status v := by
      rintro ⟨v', h'⟩
      exact ho (h.unique h').1
    exact (or_iff_left this).symm
  · obtain ⟨r, h1, h2⟩ := hi.threads
    exact ⟨r, Last.keep (fun b hb => ho (by obtain ⟨v', h', _⟩ := hb; exact (h.unique h').1)) h1, h2⟩
  · obtain ⟨r, h1, h2⟩ := hi.alpha
    exact ⟨r, Last.keep (fun b hb => ho (by obtain ⟨v', h', _⟩ := hb; exact (h.unique h').1)) h1, h2⟩
  · obtain ⟨r, h1, h2⟩ := hi.precision
    refine ⟨r, Last.keep (fun b hb => ?_) h1, h2⟩
    obtain ⟨v', h', hv, _⟩ := hb
    rcases ho with ho | ho
    · exact ho (h.unique h').1
    · exact hv ((h.unique h').2 ▸ ho)

theorem step_eq (h : Names a o v) : step e st a = apply e st o v := by
  unfold step
  rw [makeOption_of_names h]

theorem step_algorithm (h : Names a o v) (ho : IsAlgorithm o) :
    step e st a = .ok (.ok { st with pco := { st.pco with option := o } }) := by
  rw [step_eq h]
  cases o <;> first | rfl | exact absurd ho (by unfold IsAlgorithm; decide)

/-- A good argument is processed. -/
theorem step_good (hi : Inv e pre st) (h : Names a o v) (hg : Good e o v) :
    ∃ st', step e st a = .ok (.ok st') ∧ Inv e (pre ++ [a]) st' := by
  obtain ⟨k1, k2, k3, k4, k5, k6, k7⟩ := hi.other h
  obtain ⟨g1, g2, g3⟩ := hg
  by_cases ho : IsAlgorithm o
  · refine ⟨_, step_algorithm h ho, ?_⟩
    have n1 : o ≠ .number := by rintro rfl; exact ho (by decide)
    have n2 : o ≠ .time := by rintro rfl; exact ho (by decide)
    have n3 : o ≠ .status := by rintro rfl; exact ho (by decide)
    have n4 : o ≠ .threads := by rintro rfl; exact ho (by decide)
    have n5 : o ≠ .alpha := by rintro rfl; exact ho (by decide)
    exact ⟨k1 n1, hi.x, ⟨some o, Last.snoc ⟨ho, v, h⟩, rfl⟩, k3 n2 n3, k4 n3, k5 n4, k6 n5, k7 (Or.inl n3)⟩
  · have hs := step_eq (e := e) (st := st) h
    cases o
    case alpha =>
      obtain ⟨q, hq⟩ := g2 rfl
      dsimp only [apply] at hs
      rw [hq] at hs
      refine ⟨_, hs, k1 (by decide), hi.x, k2 ho, k3 (by decide) (by decide), k4 (by decide), k5 (by decide),
        ⟨some q, Last.snoc ⟨v, h, hq⟩, rfl⟩, k7 (Or.inl (by decide))⟩
    case number =>
      obtain ⟨n, hn⟩ := g3 (Or.inl rfl)
      dsimp only [apply] at hs
      rw [toInt128?_of_value hn, ok_bind] at hs
      refine ⟨_, hs, ?_, hi.x, k2 ho, k3 (by decide) (by decide), k4 (by decide), k5 (by decide),
        k6 (by decide), k7 (Or.inl (by decide))⟩
      rw [List.filter_append, List.filter_cons, if_pos (by simpa using ⟨v, h⟩), List.filter_nil]
      exact List.rel_append hi.numbers (List.Forall₂.cons ⟨v, h, hn⟩ .nil)
    case threads =>
      obtain ⟨n, hn⟩ := g3 (Or.inr (Or.inl rfl))
      dsimp only [apply] at hs
      rw [toInt128?_of_value hn, ok_bind] at hs
      refine ⟨_, hs, k1 (by decide), hi.x, k2 ho, k3 (by decide) (by decide), k4 (by decide),
        ⟨some n, Last.snoc ⟨v, h, hn⟩, ?_⟩, k6 (by decide), k7 (Or.inl (by decide))⟩
      show inBetween 1 (toInt n) e.ompMax = _
      rw [toInt_eq, inBetween_eq]
    case status =>
      have ht : (∃ b ∈ pre ++ [a], ∃ v, Names b .time v ∨ Names b .status v) := ⟨a, by simp, v, Or.inr h⟩
      have hp : (∃ b ∈ pre ++ [a], ∃ v, Names b .status v) := ⟨a, by simp, v, h⟩
      by_cases hv : v = []
      · subst hv
        exact ⟨_, hs, k1 (by decide), hi.x, k2 ho, ⟨fun _ => ht, fun _ => rfl⟩, ⟨fun _ => hp, fun _ => rfl⟩,
          k5 (by decide), k6 (by decide), k7 (Or.inr rfl)⟩
      · obtain ⟨n, hn⟩ := g3 (Or.inr (Or.inr ⟨rfl, hv⟩))
        dsimp only [apply] at hs
        rw [if_pos hv, toInt128?_of_value hn, ok_bind] at hs
        refine ⟨_, hs, k1 (by decide), hi.x, k2 ho, ⟨fun _ => ht, fun _ => rfl⟩, ⟨fun _ => hp, fun _ => rfl⟩,
          k5 (by decide), k6 (by decide), ⟨some n, Last.snoc ⟨v, h, hv, hn⟩, ?_⟩⟩
        show inBetween 0 (toInt n) 5 = _
        rw [toInt_eq, inBetween_eq]
    case time =>
      have ht : (∃ b ∈ pre ++ [a], ∃ v, Names b .time v ∨ Names b .status v) := ⟨a, by simp, v, Or.inl h⟩
      exact ⟨_, hs, k1 (by decide), hi.x, k2 ho, ⟨fun _ => ht, fun _ => rfl⟩, k4 (by decide),
          k5 (by decide), k6 (by decide), k7 (Or.inl (by decide))⟩
    all_goals first | exact absurd (by unfold Spec.Stops; decide) g1 | exact absurd (by unfold IsAlgorithm; decide) ho

/-- An argument that means nothing leads to the help screen. -/
theorem step_unknown (h : ∀ o v, ¬ Names a o v) : step e st a = .ok (.error .help) := by
  unfold step
  rw [makeOption_of_not h]
  rfl

/-- An option whose value is not meaningful leads to the help screen, unless the calculator has undefined behaviour. -/
theorem step_bad_value (h : Names a o v) (hs : ¬ Stops o) (hg : ¬ Good e o v) :
    step e st a = .ok (.error .help) ∨ step e st a = .error .overflow ∨ step e st a = .error .shift := by
  have hst := step_eq (e := e) (st := st) h
  by_cases ha : o = .alpha
  · subst ha
    have : e.toDouble v = none := by
      cases hd : e.toDouble v with
      | none => rfl
      | some q => exact absurd ⟨hs, fun _ => ⟨q, hd⟩, by rintro (h | h | h) <;> simp at h⟩ hg
    dsimp only [apply] at hst
    rw [this] at hst
    exact Or.inl hst
  · have hv : (o = .number ∨ o = .threads ∨ (o = .status ∧ v ≠ [])) ∧ ∀ x, ¬ IsValue v x := by
      by_contra hc
      refine hg ⟨hs, fun h => absurd h ha, fun h => ?_⟩
      by_contra hx
      push Not at hx
      exact hc ⟨h, hx⟩
    rcases hv with ⟨rfl | rfl | ⟨rfl, hv⟩, hn⟩ <;> dsimp only [apply] at hst <;> (try rw [if_pos hv] at hst) <;>
      rcases toInt128?_of_not hn with h | h | h <;> rw [h] at hst
    all_goals first | exact Or.inl hst | exact Or.inr (Or.inl hst) | exact Or.inr (Or.inr hst)

theorem step_stops (h : Names a o v) (hs : Stops o) :
    step e st a = .ok (.error (if o = .version then .version else if o = .test then .test else .help)) := by
  have hst := step_eq (e := e) (st := st) h
  unfold Spec.Stops at hs
  simp only [List.mem_cons, List.not_mem_nil, or_false] at hs
  rcases hs with rfl | rfl | rfl <;> exact hst

/-- Only good arguments are processed. -/
theorem good_of_step {st' : St} (h : step e st a = .ok (.ok st')) : ∃ o v, Names a o v ∧ Good e o v := by
  by_contra hc
  push Not at hc
  by_cases hn : ∀ o v, ¬ Names a o v
  · rw [step_unknown hn] at h
    simp at h
  · push Not at hn
    obtain ⟨o, v, hn⟩ := hn
    by_cases hs : Stops o
    · rw [step_stops hn hs] at h
      simp at h
    · rcases step_bad_value (st := st) hn hs (hc o v hn) with h1 | h1 | h1 <;> rw [h1] at h <;> simp at h

end

theorem parseLoop_good {e : Env} (args : List (List Char)) : ∀ (pre : List (List Char)) (st : St), Inv e pre st →
    (∀ a ∈ args, ∃ o v, Names a o v ∧ Good e o v) →
    ∀ rest, ∃ st', parseLoop e (args ++ rest) st = parseLoop e rest st' ∧ Inv e (pre ++ args) st' := by
  induction args with
  | nil => exact fun pre st hi _ rest => ⟨st, rfl, by simpa using hi⟩
  | cons a args ih =>
    intro pre st hi hg rest
    obtain ⟨o, v, hn, hgo⟩ := hg a List.mem_cons_self
    obtain ⟨st1, h1, h2⟩ := step_good hi hn hgo
    obtain ⟨st2, h3, h4⟩ := ih (pre ++ [a]) st1 h2 (fun b hb => hg b (List.mem_cons_of_mem _ hb)) rest
    refine ⟨st2, ?_, by simpa using h4⟩
    rw [List.cons_append, parseLoop, h1, ok_bind]
    exact h3

theorem good_of_parseLoop {e : Env} (args : List (List Char)) : ∀ (st st' : St), parseLoop e args st = .ok (.ok st') →
    ∀ a ∈ args, ∃ o v, Names a o v ∧ Good e o v := by
  induction args with
  | nil => intro st st' _ a ha; simp at ha
  | cons a args ih =>
    intro st st' h b hb
    rw [parseLoop] at h
    cases hs : step e st a with
    | error err => rw [hs] at h; simp at h
    | ok r =>
      rw [hs, ok_bind] at h
      cases r with
      | error ex => simp at h
      | ok st1 =>
        rcases List.mem_cons.1 hb with rfl | hb
        · exact good_of_step hs
        · exact ih st1 st' h b hb

end PS.Main
