import Verif.Spec.Expression
import Verif.Lemmas.Num

/-! # The labels of tokens -/

namespace Mabel.Expression
open Mabel.Py Mabel.Dates Mabel.Filters Mabel.Tokens Spec

/-- `label` from what the library says. -/
def core (token u : Str) (isFloat wordStart : Bool) : Label :=
  if token = [] then .empty
  else if wrapped '`' token then .variable
  else if token = "*".toList then .everything
  else if u ∈ functions then .function
  else if (Tokens.operators.lookup u).isSome then .operator
  else if u ∈ aggregators then .aggregator
  else if wrapped '"' token || wrapped '\'' token then
    if (parseIso (inner token)).isSome then .date else .literal
  else if (pyInt token).isOk then .integer
  else if isFloat then .float
  else if token = "(".toList ∨ token = "[".toList then .left
  else if token = ")".toList ∨ token = "]".toList then .right
  else if token = ",".toList then .comma
  else if wordStart then
    if u = "TRUE".toList ∨ u = "FALSE".toList then .boolean
    else if u = "NULL".toList ∨ u = "NONE".toList then .null
    else if u = "AND".toList then .and
    else if u = "OR".toList then .or
    else if u = "NOT".toList then .not
    else if u = "AS".toList then .as
    else .variable
  else .unknown

theorem label_core (lex : Lex) (raw : Str) : label lex raw =
    core (strip raw) (lex.upper (strip raw)) (lex.float (strip raw)).isSome (lex.wordStart ((strip raw).headD ' ')) := rfl

theorem upper_ascii {lex : Lex} (h : Sane lex) (s : Str) (hs : ∀ c ∈ s, c.toNat < 128) :
    lex.upper s = s.map Char.toUpper := by
  obtain ⟨up, h1, h2⟩ := h.upper
  rw [h1]
  induction s with
  | nil => rfl
  | cons c s ih =>
    rw [List.flatMap_cons, h2 c (hs c (by simp)), ih (fun d hd => hs d (by simp [hd]))]
    rfl

theorem upper_head {lex : Lex} (h : Sane lex) (c : Char) (s : Str) (hc : c.toNat < 128) :
    ∃ t, lex.upper (c :: s) = c.toUpper :: t := by
  obtain ⟨up, h1, h2⟩ := h.upper
  rw [h1, List.flatMap_cons, h2 c hc]
  exact ⟨_, rfl⟩

/-- The keywords and operators begin with a letter or one of `<>=!`. -/
theorem heads : ∀ f ∈ functions ++ Tokens.operators.map (·.1) ++ aggregators ++
    ["TRUE", "FALSE", "NULL", "NONE", "AND", "OR", "NOT", "AS"].map String.toList,
    ∃ c ∈ f.head?, (c.isAlpha || c == '<' || c == '>' || c == '=' || c == '!') = true := by
  have : ∀ f ∈ functions ++ Tokens.operators.map (·.1) ++ aggregators ++
      ["TRUE", "FALSE", "NULL", "NONE", "AND", "OR", "NOT", "AS"].map String.toList,
      (match f.head? with
        | none => false
        | some c => (c.isAlpha || c == '<' || c == '>' || c == '=' || c == '!')) = true := by decide +kernel
  intro f hf
  have := this f hf
  split at this
  · cases this
  · rename_i c hc
    exact ⟨c, by rw [hc]; rfl, this⟩

theorem not_mem_of_head {c : Char} {t : Str}
    (hc : (c.isAlpha || c == '<' || c == '>' || c == '=' || c == '!') = false) :
    c :: t ∉ functions ∧ (Tokens.operators.lookup (c :: t)).isSome = false ∧ c :: t ∉ aggregators ∧
    c :: t ∉ ["TRUE", "FALSE", "NULL", "NONE", "AND", "OR", "NOT", "AS"].map String.toList := by
  have key : ∀ f ∈ functions ++ Tokens.operators.map (·.1) ++ aggregators ++
      ["TRUE", "FALSE", "NULL", "NONE", "AND", "OR", "NOT", "AS"].map String.toList, c :: t ≠ f := by
    intro f hf he
    obtain ⟨d, hd, hb⟩ := heads f hf
    rw [← he] at hd
    obtain rfl : c = d := by simpa using hd
    rw [hc] at hb; cases hb
  refine ⟨fun h => key _ ?_ rfl, ?_, fun h => key _ ?_ rfl, fun h => key _ ?_ rfl⟩
  · simp only [List.mem_append]; exact Or.inl (Or.inl (Or.inl h))
  · cases hl : Tokens.operators.lookup (c :: t) with
    | none => rfl
    | some o =>
      exfalso
      refine key (c :: t) ?_ rfl
      simp only [List.mem_append]
      refine Or.inl (Or.inl (Or.inr ?_))
      have : ∀ l : List (Str × Tokens.Op), l.lookup (c :: t) = some o → c :: t ∈ l.map (·.1) := by
        intro l
        induction l with
        | nil => intro h; cases h
        | cons a l ih =>
          intro h
          rw [List.lookup_cons] at h
          split at h
          · rename_i heq
            rw [eq_of_beq heq]; simp
          · simp only [List.map_cons, List.mem_cons]
            exact Or.inr (ih h)
      exact this _ hl
  · simp only [List.mem_append]; exact Or.inl (Or.inr h)
  · simp only [List.mem_append]; exact Or.inr h

theorem strip_ends (s : Str) (h1 : ∀ c ∈ s.head?, isSpace c = false) (h2 : ∀ c ∈ s.getLast?, isSpace c = false) :
    strip s = s := by
  unfold strip
  rw [dropWhile_head_false _ s h1, dropWhile_head_false, List.reverse_reverse]
  intro c hc
  rw [List.head?_reverse] at hc
  exact h2 c hc

theorem pyInt_head (c : Char) (s : Str) (hs : strip (c :: s) = c :: s) (h1 : digitVal c = none) (h2 : c ≠ '-')
    (h3 : c ≠ '+') : pyInt (c :: s) = .error .valueError := by
  unfold pyInt
  simp only [hs]
  have : intDigits 0 false (c :: s) = none := by
    rw [intDigits, h1]
    simp
  split
  · rename_i heq; split at heq
    · rename_i h; exact absurd (List.cons.inj h).1 h2
    · rename_i h; exact absurd (List.cons.inj h).1 h3
    · rw [this] at heq; cases heq
  · rfl

theorem quote_strip (q : Char) (s : Str) (hq : isSpace q = false) : strip (quote q s) = quote q s := by
  apply strip_ends
  · intro c hc
    obtain rfl : q = c := by simpa [quote] using hc
    exact hq
  · intro c hc
    rw [show quote q s = (q :: s) ++ [q] from rfl, List.getLast?_concat] at hc
    obtain rfl : q = c := by simpa using hc
    exact hq

theorem quote_wrapped (q r : Char) (s : Str) : wrapped r (quote q s) = decide (q = r) := by
  unfold wrapped quote
  rw [show q :: (s ++ [q]) = (q :: s) ++ [q] from rfl, List.getLast?_concat]
  by_cases h : q = r <;> simp [h]

theorem quote_inner (q : Char) (s : Str) : inner (quote q s) = s := by
  unfold inner quote
  simp

theorem quote_ne (q : Char) (s : Str) (x : Char) : quote q s ≠ [x] := by
  unfold quote
  intro h
  have := congrArg List.length h
  simp at this

theorem label_quotedName (lex : Lex) (s : Str) : label lex (quote '`' s) = .variable := by
  rw [label_core, quote_strip _ _ (by decide), core, if_neg (by simp [quote]), if_pos (by rw [quote_wrapped]; rfl)]

theorem label_quote {lex : Lex} (h : Sane lex) (q : Char) (s : Str) (hq : q = '"' ∨ q = '\'') :
    label lex (quote q s) = if (parseIso s).isSome then .date else .literal := by
  have hsp : isSpace q = false := by rcases hq with rfl | rfl <;> decide
  have hbq : q ≠ '`' := by rcases hq with rfl | rfl <;> decide
  obtain ⟨t, ht⟩ := upper_head h q (s ++ [q]) (by rcases hq with rfl | rfl <;> decide)
  have ht : lex.upper (quote q s) = q.toUpper :: t := ht
  have hu : (q.toUpper.isAlpha || q.toUpper == '<' || q.toUpper == '>' || q.toUpper == '=' || q.toUpper == '!') = false := by
    rcases hq with rfl | rfl <;> decide
  obtain ⟨n1, n2, n3, _⟩ := not_mem_of_head (t := t) hu
  rw [← ht] at n1 n2 n3
  rw [label_core, quote_strip _ _ hsp, core, if_neg (by simp [quote]), if_neg (by rw [quote_wrapped]; simp [hbq]),
    if_neg (show quote q s ≠ "*".toList from quote_ne q s '*'), if_neg n1, if_neg (by rw [n2]; simp), if_neg n3, if_pos, quote_inner]
  rw [quote_wrapped, quote_wrapped]
  rcases hq with rfl | rfl <;> decide

/-! ## Integers -/

theorem intStr_chars (i : Int) : ∀ c ∈ intStr i, c = '-' ∨ ∃ k, k < 10 ∧ c = digitChar k := by
  intro c hc
  cases i with
  | ofNat n =>
    exact Or.inr (natStr_mem (by simpa [intStr] using hc))
  | negSucc n =>
    rw [intStr] at hc
    rcases List.mem_cons.1 hc with rfl | hc
    · exact Or.inl rfl
    · exact Or.inr (natStr_mem hc)

theorem intChar_facts : ∀ k, k < 10 → (digitChar k).toUpper = digitChar k ∧ (digitChar k).toNat < 128 ∧
    isSpace (digitChar k) = false ∧ ((digitChar k).isAlpha || digitChar k == '<' || digitChar k == '>' ||
    digitChar k == '=' || digitChar k == '!') = false ∧ digitChar k ≠ '`' ∧ digitChar k ≠ '*' ∧ digitChar k ≠ '"' ∧
    digitChar k ≠ '\'' ∧ digitChar k ≠ '-' ∧ digitChar k ≠ '+' ∧ digitChar k ≠ ',' := by decide

theorem intStr_fact (i : Int) {P : Char → Prop} (h1 : P '-') (h2 : ∀ k, k < 10 → P (digitChar k)) :
    ∀ c ∈ intStr i, P c := by
  intro c hc
  rcases intStr_chars i c hc with rfl | ⟨k, hk, rfl⟩
  · exact h1
  · exact h2 k hk

theorem intStr_ne_nil (i : Int) : intStr i ≠ [] := by
  cases i with
  | ofNat n => exact natStr_ne_nil n
  | negSucc n => rw [intStr]; simp

theorem intStr_strip (i : Int) : strip (intStr i) = intStr i :=
  strip_eq _ (intStr_fact i (by decide) (fun k hk => (intChar_facts k hk).2.2.1))

theorem intStr_upper {lex : Lex} (h : Sane lex) (i : Int) : lex.upper (intStr i) = intStr i := by
  rw [upper_ascii h _ (intStr_fact i (by decide) (fun k hk => (intChar_facts k hk).2.1))]
  refine Eq.trans ?_ (List.map_id (intStr i))
  exact List.map_congr_left (intStr_fact i (by decide) (fun k hk => (intChar_facts k hk).1))

theorem pyInt_intStr (i : Int) : pyInt (intStr i) = .ok i := by
  cases i with
  | ofNat n =>
    obtain ⟨ds, h1, h2, h3, h4⟩ := natStr_digits n
    rw [intStr, h3, pyInt_digits ds h1 h2, h4]
    rfl
  | negSucc n =>
    obtain ⟨ds, h1, h2, h3, h4⟩ := natStr_digits (n + 1)
    have hs := intStr_strip (.negSucc n)
    rw [intStr] at hs ⊢
    unfold pyInt
    simp only [hs]
    rw [h3, intDigits_map ds h1 0 false (Or.inr h2)]
    unfold digitsValue at h4
    rw [h4]
    rfl

theorem intStr_cons (i : Int) : ∃ c s, intStr i = c :: s ∧ c ∈ intStr i := by
  cases h : intStr i with
  | nil => exact absurd h (intStr_ne_nil i)
  | cons c s => exact ⟨c, s, rfl, by simp⟩

theorem label_int {lex : Lex} (h : Sane lex) (i : Int) : label lex (intStr i) = .integer := by
  obtain ⟨c, s, hcs, hm⟩ := intStr_cons i
  have hc := intStr_fact i (P := fun c => (c.isAlpha || c == '<' || c == '>' || c == '=' || c == '!') = false ∧ c ≠ '`' ∧
    c ≠ '*' ∧ c ≠ '"' ∧ c ≠ '\'') (by decide) (fun k hk => by
      obtain ⟨_, _, _, h1, h2, h3, h4, h5, _⟩ := intChar_facts k hk
      exact ⟨h1, h2, h3, h4, h5⟩) c hm
  obtain ⟨h1, h2, h3, h4, h5⟩ := hc
  obtain ⟨n1, n2, n3, _⟩ := not_mem_of_head (t := s) h1
  have hw : ∀ q, c ≠ q → wrapped q (c :: s) = false := by
    intro q hq
    unfold wrapped
    simp [hq]
  have hp := pyInt_intStr i
  rw [label_core, intStr_strip, intStr_upper h, core, hcs] at *
  rw [if_neg (by simp), if_neg (by rw [hw _ h2]; simp), if_neg (by intro he; exact h3 (List.cons.inj he).1), if_neg n1,
    if_neg (by rw [n2]; simp), if_neg n3, if_neg (by rw [hw _ h4, hw _ h5]; simp), if_pos (by rw [hp]; rfl)]

/-! ## Words -/

theorem of_ascii {P : Char → Prop} (h : ∀ n, n < 128 → P (Char.ofNat n)) (c : Char) (hc : c.toNat < 128) : P c := by
  have := h c.toNat hc
  rwa [Char.ofNat_toNat] at this

theorem alphanum_ascii (c : Char) (hc : c.isAlphanum = true) : c.toNat < 128 := by
  simp only [Char.isAlphanum, Char.isAlpha, Char.isUpper, Char.isLower, Char.isDigit, Bool.or_eq_true,
    Bool.and_eq_true, decide_eq_true_eq, ge_iff_le, UInt32.le_iff_toNat_le] at hc
  rcases hc with (⟨_, h⟩ | ⟨_, h⟩) | ⟨_, h⟩ <;> (simp at h; omega)

theorem hascii (c : Char) (hc : (c.isAlphanum || c == '_' || c == '-' || c == '.') = true) :
    c.toNat < 128 ∧ isSpace c = false := by
  have h1 : c.toNat < 128 := by
    simp only [Bool.or_eq_true, beq_iff_eq] at hc
    rcases hc with ((hc | rfl) | rfl) | rfl
    · exact alphanum_ascii c hc
    · decide
    · decide
    · decide
  refine ⟨h1, ?_⟩
  have := of_ascii (P := fun c => (c.isAlphanum || c == '_' || c == '-' || c == '.') = true → isSpace c = false)
    (by decide +kernel) c h1
  exact this hc

theorem wordHead (c : Char) (hc : (c.isAlpha || c == '_') = true) :
    (c.isDigit || c == '+' || c == '-' || c == '.' || isSpace c) = false ∧ digitVal c = none := by
  have h1 : c.toNat < 128 := by
    simp only [Bool.or_eq_true, beq_iff_eq] at hc
    rcases hc with hc | rfl
    · exact alphanum_ascii c (by simp [Char.isAlphanum, hc])
    · decide
  exact of_ascii (P := fun c => (c.isAlpha || c == '_') = true →
    (c.isDigit || c == '+' || c == '-' || c == '.' || isSpace c) = false ∧ digitVal c = none) (by decide +kernel) c h1 hc

theorem label_word {lex : Lex} (h : Sane lex) (s : Str) (c : Char) (cs : Str) (hs : s = c :: cs)
    (hc : (c.isAlpha || c == '_') = true) (hall : ∀ c ∈ s, (c.isAlphanum || c == '_' || c == '-' || c == '.') = true) :
    label lex s = core s (s.map Char.toUpper) false true := by
  have hst : strip s = s := strip_eq s (fun c hc => (hascii c (hall c hc)).2)
  rw [label_core, hst, upper_ascii h s (fun c hc => (hascii c (hall c hc)).1)]
  congr 1
  · rw [hs, h.float]
    · rfl
    · exact (wordHead c hc).1
  · rw [hs]
    exact h.wordStart c hc

theorem label_name {lex : Lex} (h : Sane lex) (s : Str) (hn : Name s) : label lex s = .variable := by
  obtain ⟨⟨c, cs, hs, hc⟩, hall, hr⟩ := hn
  rw [label_word h s c cs hs hc hall]
  have hne : ∀ d : Char, (d.isAlpha || d == '_') = false → c ≠ d := by rintro d hd rfl; rw [hd] at hc; cases hc
  have hw : ∀ d : Char, (d.isAlpha || d == '_') = false → wrapped d s = false := by
    intro d hd
    unfold wrapped
    rw [hs]
    simp [hne d hd]
  have hl : ∀ (d : Char) (l : Str), (d.isAlpha || d == '_') = false → s ≠ d :: l := by
    intro d l hd he
    rw [hs] at he
    exact hne d hd (List.cons.inj he).1
  unfold reserved at hr
  simp only [List.mem_append, not_or] at hr
  obtain ⟨⟨⟨r1, r2⟩, r3⟩, r4⟩ := hr
  rw [show functionNames = functions from rfl] at r1
  rw [show comparisonNames = Tokens.operators.map (·.1) from rfl] at r2
  rw [show aggregatorNames = aggregators from rfl] at r3
  have r2' : (Tokens.operators.lookup (s.map Char.toUpper)).isSome = false := by
    cases hl : Tokens.operators.lookup (s.map Char.toUpper) with
    | none => rfl
    | some o =>
      exfalso
      apply r2
      have : ∀ l : List (Str × Tokens.Op), l.lookup (s.map Char.toUpper) = some o → s.map Char.toUpper ∈ l.map (·.1) := by
        intro l
        induction l with
        | nil => intro h; cases h
        | cons a l ih =>
          intro h
          rw [List.lookup_cons] at h
          split at h
          · rename_i heq
            rw [eq_of_beq heq]; simp
          · simp only [List.map_cons, List.mem_cons]
            exact Or.inr (ih h)
      exact this _ hl
  have hpi : pyInt s = .error .valueError := by
    have hst : strip s = s := strip_eq s (fun c hc => (hascii c (hall c hc)).2)
    rw [hs] at hst ⊢
    exact pyInt_head c cs hst (wordHead c hc).2 (hne _ (by decide)) (hne _ (by decide))
  rw [core, if_neg (by rw [hs]; simp), if_neg (by rw [hw _ (by decide)]; simp), if_neg (show s ≠ "*".toList from hl '*' [] (by decide)), if_neg r1,
    if_neg (by rw [r2']; simp), if_neg r3, if_neg (by rw [hw _ (by decide), hw _ (by decide)]; simp),
    if_neg (by rw [hpi]; simp [Except.isOk, Except.toBool]), if_neg (by simp),
    if_neg (show ¬ (s = "(".toList ∨ s = "[".toList) from not_or.2 ⟨hl '(' [] (by decide), hl '[' [] (by decide)⟩),
    if_neg (show ¬ (s = ")".toList ∨ s = "]".toList) from not_or.2 ⟨hl ')' [] (by decide), hl ']' [] (by decide)⟩),
    if_neg (show s ≠ ",".toList from hl ',' [] (by decide)), if_pos rfl]
  simp only [List.map_cons, List.mem_cons, not_or] at r4
  simp only [r4, if_false, or_self]

/-- The words that are not names, and the punctuation. -/
theorem label_keyword {lex : Lex} (h : Sane lex) :
    label lex "AND".toList = .and ∧ label lex "OR".toList = .or ∧ label lex "NOT".toList = .not ∧
    label lex "TRUE".toList = .boolean ∧ label lex "FALSE".toList = .boolean ∧ label lex "NULL".toList = .null := by
  refine ⟨?_, ?_, ?_, ?_, ?_, ?_⟩
  all_goals exact (label_word h _ _ _ rfl (by decide) (by decide)).trans (by decide +kernel)

theorem label_punctuation {lex : Lex} (h : Sane lex) :
    label lex "(".toList = .left ∧ label lex ")".toList = .right ∧ label lex ",".toList = .comma := by
  have key : ∀ c ∈ ['(', ')', ','], label lex [c] = core [c] [c.toUpper] false (lex.wordStart c) := by
    intro c hc
    have hs : isSpace c = false ∧ c.toNat < 128 ∧
        (c.isDigit || c == '+' || c == '-' || c == '.' || isSpace c) = false := by revert c; decide
    rw [label_core, show strip [c] = [c] from strip_eq _ (by simpa using hs.1), upper_ascii h _ (by simpa using hs.2.1),
      h.float c [] hs.2.2]
    rfl
  refine ⟨(key '(' (by decide)).trans ?_, (key ')' (by decide)).trans ?_, (key ',' (by decide)).trans ?_⟩
  all_goals
    generalize lex.wordStart _ = w
    revert w
    decide +kernel

theorem label_operator {lex : Lex} (h : Sane lex) : ∀ op ∈ Tokens.operators.map (·.1), label lex op = .operator := by
  have key : ∀ op ∈ Tokens.operators.map (·.1), (∀ c ∈ op, c.toNat < 128) ∧ strip op = op ∧ ∀ a b : Bool,
      core op (op.map Char.toUpper) a b = .operator := by decide +kernel
  intro op hop
  obtain ⟨h1, h2, h3⟩ := key op hop
  rw [label_core, h2, upper_ascii h op h1]
  exact h3 _ _

theorem upper_operator {lex : Lex} (h : Sane lex) : ∀ op ∈ Tokens.operators.map (·.1), lex.upper op = op := by
  have key : ∀ op ∈ Tokens.operators.map (·.1), (∀ c ∈ op, c.toNat < 128) ∧ op.map Char.toUpper = op := by decide +kernel
  intro op hop
  obtain ⟨h1, h2⟩ := key op hop
  rw [upper_ascii h op h1, h2]

theorem label_function {lex : Lex} (h : Sane lex) : ∀ f, f ∈ functions ∨ f ∈ aggregators →
    label lex f = .function ∨ label lex f = .aggregator := by
  have key : ∀ f ∈ functions ++ aggregators, (∀ c ∈ f, c.toNat < 128) ∧ strip f = f ∧ ∀ a b : Bool,
      core f (f.map Char.toUpper) a b = .function ∨ core f (f.map Char.toUpper) a b = .aggregator := by decide +kernel
  intro f hf
  obtain ⟨h1, h2, h3⟩ := key f (List.mem_append.2 hf)
  rw [label_core, h2, upper_ascii h f h1]
  exact h3 _ _

theorem ite_ne {c : Prop} [Decidable c] {a b x : Label} (ha : a ≠ x) (hb : b ≠ x) : (if c then a else b) ≠ x := by
  by_cases h : c
  · rw [if_pos h]; exact ha
  · rw [if_neg h]; exact hb

/-- Only parentheses have the labels of parentheses. -/
theorem label_paren (lex : Lex) (t : Str) (h : label lex t = .left ∨ label lex t = .right) : isParen (strip t) := by
  rw [label_core] at h
  generalize strip t = s at *
  generalize (lex.float s).isSome = a at *
  generalize lex.wordStart (s.headD ' ') = b at *
  generalize lex.upper s = u at *
  have key : core s u a b = .left ∨ core s u a b = .right →
      s = "(".toList ∨ s = "[".toList ∨ s = ")".toList ∨ s = "]".toList := by
    intro h
    have h : ¬ (core s u a b ≠ .left ∧ core s u a b ≠ .right) := by
      rintro ⟨h1, h2⟩
      rcases h with h | h
      · exact h1 h
      · exact h2 h
    refine Decidable.byContradiction (fun hn => ?_)
    simp only [not_or] at hn
    obtain ⟨n1, n2, n3, n4⟩ := hn
    apply h
    unfold core
    rw [if_neg (not_or.2 ⟨n1, n2⟩), if_neg (not_or.2 ⟨n3, n4⟩)]
    constructor
    all_goals
      repeat' apply ite_ne
      all_goals decide
  rcases key h with rfl | rfl | rfl | rfl <;> (unfold isParen; decide)

/-! ## Texts in quotes are not numbers or dates -/

theorem dropWhile_concat {α : Type} (p : α → Bool) (l : List α) (c : α) (hc : p c = false) :
    ∃ l', (l ++ [c]).dropWhile p = l' ++ [c] := by
  induction l with
  | nil => exact ⟨[], by simp [List.dropWhile, hc]⟩
  | cons a l ih =>
    obtain ⟨l', hl⟩ := ih
    rw [List.cons_append, List.dropWhile_cons]
    split
    · exact ⟨l', hl⟩
    · exact ⟨a :: l, rfl⟩

theorem strip_head (c : Char) (s : Str) (hc : isSpace c = false) : ∃ s', strip (c :: s) = c :: s' := by
  unfold strip
  rw [dropWhile_head_false _ (c :: s) (by simpa using hc), List.reverse_cons]
  obtain ⟨l', hl⟩ := dropWhile_concat isSpace s.reverse c hc
  rw [hl, List.reverse_append]
  exact ⟨_, rfl⟩

theorem pyInt_bad (c : Char) (s : Str) (hc : isSpace c = false) (h1 : digitVal c = none) (h2 : c ≠ '-')
    (h3 : c ≠ '+') : pyInt (c :: s) = .error .valueError := by
  obtain ⟨s', hs⟩ := strip_head c s hc
  unfold pyInt
  simp only [hs]
  have : intDigits 0 false (c :: s') = none := by
    rw [intDigits, h1]
    simp
  split
  · rename_i heq; split at heq
    · rename_i h; exact absurd (List.cons.inj h).1 h2
    · rename_i h; exact absurd (List.cons.inj h).1 h3
    · rw [this] at heq; cases heq
  · rfl

theorem makeFrom_bad (c : Char) (s : Str) (ps : List Str) (h : pyInt (c :: s) = .error .valueError) :
    makeFrom ((c :: s) :: ps) = .error .valueError := by
  unfold makeFrom
  rw [List.mapM_cons, h]
  rfl

theorem parseBody_bad (c : Char) (s : Str) (hc : isSpace c = false) (h1 : digitVal c = none) (h2 : c ≠ '-')
    (h3 : c ≠ '+') : ∀ d, parseBody (c :: s) ≠ .ok (some d) := by
  have hm : ∀ ps, makeFrom (slice (c :: s) 0 4 :: ps) = .error .valueError := fun ps =>
    makeFrom_bad c _ ps (pyInt_bad c _ hc h1 h2 h3)
  intro d h
  unfold parseBody at h
  simp only [hm] at h
  split at h
  · cases h
  · split at h
    · cases h
    · split at h
      · split at h
        · cases h
        · split at h
          · cases h
          · split at h <;> cases h
      · cases h

theorem parseIso_bad (c : Char) (s : Str) (hc : isSpace c = false) (h1 : digitVal c = none) (h2 : c ≠ '-')
    (h3 : c ≠ '+') (hz : s ≠ []) : parseIso (c :: s) = none := by
  have hb := fun t => parseBody_bad c t hc h1 h2 h3
  have hbody : ∀ t, (match parseBody (c :: t) with | .ok d => d | .error _ => none) = none := by
    intro t
    cases h : parseBody (c :: t) with
    | error e => rfl
    | ok d =>
      cases d with
      | none => rfl
      | some d => exact absurd h (hb t d)
  have hv : ∃ t, (if (c :: s).getLast? = some 'Z' then (c :: s).dropLast else c :: s) = c :: t := by
    split
    · cases s with
      | nil => exact absurd rfl hz
      | cons a s => exact ⟨_, rfl⟩
    · exact ⟨s, rfl⟩
  obtain ⟨t, ht⟩ := hv
  have hsplit : ∃ u, (split '+' (c :: t)).headD [] = c :: u := by
    rw [split, if_neg h3]
    cases split '+' t with
    | nil => exact ⟨[], rfl⟩
    | cons a l => exact ⟨a, rfl⟩
  obtain ⟨u, hu⟩ := hsplit
  unfold parseIso
  simp only [ht, hu]
  by_cases c1 : 10 ≤ (c :: s).length ∧ (c :: s).length ≤ 33
  · rw [if_pos c1]
    by_cases c2 : (c :: t).contains '+' = true
    · rw [if_pos c2]
      by_cases c3 : 10 ≤ List.length (c :: u) ∧ List.length (c :: u) ≤ 28
      · rw [if_pos c3]; exact hbody u
      · rw [if_neg c3]
    · rw [if_neg c2]; exact hbody t
  · rw [if_neg c1]

end Mabel.Expression
