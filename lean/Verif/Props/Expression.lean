import Verif.Lemmas.Tokens
import Verif.Lemmas.Expression

/-! # Expressions: parsing (C43) -/

namespace Mabel.Expression
open Mabel.Py Mabel.Dates Mabel.Filters Mabel.Tokens Spec

variable {lex : Lex}

/-! ## Terminals -/

theorem plain_parse (h : Sane lex) {t : Term} {s : Str} (hp : Plain t s) (rest : List Str) :
    parseTerminal lex (s :: rest) = .ok (t, rest) := by
  cases hp with
  | int i =>
    rw [parseTerminal]
    simp only [label_int h, pyInt_intStr]
    rfl
  | name hn =>
    rw [parseTerminal]
    simp only [label_name h _ hn]
  | quotedName =>
    rw [parseTerminal]
    simp only [label_quotedName]
  | text hq hd =>
    rw [parseTerminal]
    simp only [label_quote h _ _ hq, hd, quote_inner]
    rfl
  | date hq hd =>
    rw [parseTerminal]
    simp only [label_quote h _ _ hq, hd, quote_inner, Option.isSome_some, if_true]
  | true =>
    rw [parseTerminal]
    simp only [(label_keyword h).2.2.2.1, upper_ascii h "TRUE".toList (by decide)]
    rfl
  | false =>
    rw [parseTerminal]
    simp only [(label_keyword h).2.2.2.2.1, upper_ascii h "FALSE".toList (by decide)]
    rfl

/-- The label of a terminal does not start anything else. -/
theorem plain_label (h : Sane lex) {t : Term} {s : Str} (hp : Plain t s) :
    label lex s ≠ .not ∧ label lex s ≠ .function ∧ label lex s ≠ .aggregator ∧ label lex s ≠ .left := by
  cases hp with
  | int i => rw [label_int h]; decide
  | name hn => rw [label_name h _ hn]; decide
  | quotedName => rw [label_quotedName]; decide
  | text hq hd => rw [label_quote h _ _ hq, hd]; decide
  | date hq hd => rw [label_quote h _ _ hq, hd]; simp
  | true => rw [(label_keyword h).2.2.2.1]; decide
  | false => rw [(label_keyword h).2.2.2.2.1]; decide

theorem interpret_int (h : Sane lex) (i : Int) : interpretStr lex (intStr i) = .int i := by
  unfold interpretStr
  simp only [intStr_upper h, pyInt_intStr]
  rw [if_neg]
  obtain ⟨c, s, hcs, hm⟩ := intStr_cons i
  have hc := intStr_fact i (P := fun c => c ≠ 'T' ∧ c ≠ 'F') (by decide) (by decide) c hm
  rw [hcs]
  rintro (he | he)
  · exact hc.1 (List.cons.inj he).1
  · exact hc.2 (List.cons.inj he).1

theorem quote_facts (q : Char) (hq : q = '"' ∨ q = '\'') : q.toNat < 128 ∧ isSpace q = false ∧ digitVal q = none ∧ q ≠ '-' ∧
    q ≠ '+' ∧ q.toUpper = q ∧ q ≠ 'T' ∧ q ≠ 'F' ∧
    (q.isDigit || q == '+' || q == '-' || q == '.' || isSpace q) = false := by
  rcases hq with rfl | rfl <;> decide

theorem interpret_quote (h : Sane lex) (q : Char) (s : Str) (hq : q = '"' ∨ q = '\'') :
    interpretStr lex (quote q s) = .str (quote q s) := by
  obtain ⟨f1, f2, f3, f4, f5, f6, f7, f8, f9⟩ := quote_facts q hq
  obtain ⟨t, ht⟩ := upper_head h q (s ++ [q]) f1
  rw [f6] at ht
  unfold interpretStr quote
  simp only [ht]
  rw [if_neg]
  · simp only [pyInt_bad q (s ++ [q]) f2 f3 f4 f5, h.float q (s ++ [q]) f9,
      parseIso_bad q (s ++ [q]) f2 f3 f4 f5 (by simp)]
  · rintro (he | he)
    · exact f7 (List.cons.inj he).1
    · exact f8 (List.cons.inj he).1

theorem item_parse (h : Sane lex) {v : Scalar} {s : Str} (hi : Item v s) :
    interpretStr lex s = v ∧ label lex s ≠ .right ∧ label lex s ≠ .comma := by
  cases hi with
  | int i => exact ⟨interpret_int h i, by rw [label_int h]; decide, by rw [label_int h]; decide⟩
  | text hq =>
    refine ⟨interpret_quote h _ _ hq, ?_, ?_⟩
    · rw [label_quote h _ _ hq]; split <;> decide
    · rw [label_quote h _ _ hq]; split <;> decide

theorem items_parse (h : Sane lex) {vs : List Scalar} {ss : List Str} (hi : Items vs ss) (acc : List Scalar)
    (rest : List Str) : listTerm lex (ss ++ ")".toList :: rest) acc = .ok (.list (acc ++ vs), rest) := by
  have hr := (label_punctuation h).2.1
  have hcm := (label_punctuation h).2.2
  induction hi generalizing acc with
  | nil => rw [List.nil_append, listTerm, if_pos hr, List.append_nil]
  | one hi =>
    obtain ⟨h1, h2, h3⟩ := item_parse h hi
    rw [List.cons_append, listTerm, if_neg h2, if_pos h3, h1, List.nil_append, listTerm, if_pos hr]
  | more hi _ ih =>
    obtain ⟨h1, h2, h3⟩ := item_parse h hi
    rw [List.cons_append, listTerm, if_neg h2, if_pos h3, h1, List.cons_append, listTerm, if_neg (by rw [hcm]; decide),
      if_neg (by rw [hcm]; decide), ih]
    simp

theorem after_parse (h : Sane lex) {t : Term} {b : List Str} (ha : After t b) (rest : List Str) :
    parseTerminal lex (b ++ rest) = .ok (t, rest) := by
  cases ha with
  | plain hp => exact plain_parse h hp rest
  | list hi =>
    rw [List.cons_append, parseTerminal]
    simp only [(label_punctuation h).1]
    rw [List.append_assoc]
    exact items_parse h hi [] rest

theorem callArgs_balanced (h : Sane lex) {args : List Str} (hb : Balanced args) (n : Nat) (rest : List Str) (acc : Str) :
    callArgs lex (n + 1) (args ++ rest) acc = callArgs lex (n + 1) rest (acc ++ args.flatten) := by
  induction hb generalizing n rest acc with
  | nil => simp
  | token ht _ ih =>
    rename_i t ts _
    have h1 : label lex t ≠ .left := fun hl => ht (label_paren lex t (Or.inl hl))
    have h2 : label lex t ≠ .right := fun hl => ht (label_paren lex t (Or.inr hl))
    rw [List.cons_append, callArgs, if_neg h2, if_neg h1, ih]
    simp
  | paren _ _ iha ihb =>
    have hl := (label_punctuation h).1
    have hr := (label_punctuation h).2.1
    rw [List.cons_append, callArgs, if_neg (by rw [hl]; decide), if_pos hl, List.append_assoc, iha, List.cons_append,
      callArgs, if_pos hr, ihb]
    simp

/-! ## Conditions -/

theorem comparison_parse (h : Sane lex) (l : Term) {op : Str} (hop : op ∈ Tokens.operators.map (·.1)) {r : Term}
    {ts rest : List Str} (ha : parseTerminal lex ts = .ok (r, rest)) :
    comparison lex l (op :: ts) = .ok (.cmp l op r, rest) := by
  rw [comparison, if_pos (label_operator h op hop), ha, upper_operator h op hop]
  rfl

/-- With large bounds the result is this. -/
def Ev {α : Type} (f : Nat → α) (v : α) : Prop := ∃ N, ∀ n, N ≤ n → f n = v

theorem Ev.succ {α : Type} {f g : Nat → α} {v : α} (h : Ev g v) (hf : ∀ n, g n = v → f (n + 1) = v) : Ev f v := by
  obtain ⟨N, hN⟩ := h
  refine ⟨N + 1, fun n hn => ?_⟩
  obtain ⟨m, rfl⟩ : ∃ m, n = m + 1 := ⟨n - 1, by omega⟩
  exact hf m (hN m (by omega))

theorem Ev.succ2 {α β : Type} {f : Nat → α} {g : Nat → β} {w : β} {k : Nat → α} {v : α} (h : Ev g w) (hk : Ev k v)
    (hf : ∀ n, g n = w → k n = v → f (n + 1) = v) : Ev f v := by
  obtain ⟨N, hN⟩ := h
  obtain ⟨M, hM⟩ := hk
  refine ⟨max N M + 1, fun n hn => ?_⟩
  obtain ⟨m, rfl⟩ : ∃ m, n = m + 1 := ⟨n - 1, by omega⟩
  exact hf m (hN m (by omega)) (hM m (by omega))

theorem Ev.const {α : Type} {f : Nat → α} {v : α} (hf : ∀ n, f (n + 1) = v) : Ev f v :=
  ⟨1, fun n hn => by obtain ⟨m, rfl⟩ : ∃ m, n = m + 1 := ⟨n - 1, by omega⟩; exact hf m⟩

theorem before_parse (h : Sane lex) {l : Term} {a : List Str} (hb : Before l a) {op : Str}
    (hop : op ∈ Tokens.operators.map (·.1)) {r : Term} {ts rest : List Str}
    (ha : parseTerminal lex ts = .ok (r, rest)) :
    Ev (fun n => parseCond lex n (a ++ op :: ts)) (.ok (.cmp l op r, rest)) := by
  apply Ev.const
  intro n
  have hlo : label lex op = .operator := label_operator h op hop
  cases hb with
  | plain hp =>
    obtain ⟨h1, h2, h3, h4⟩ := plain_label h hp
    rw [List.cons_append, parseCond, if_neg (by simp [nextIs, h1]), if_neg (by simp [nextIs, h2, h3]),
      if_neg (by simp [nextIs, h4]), plain_parse h hp]
    exact comparison_parse h l hop ha
  | call hf hb =>
    rename_i f args
    have hl := (label_punctuation h).1
    have hr := (label_punctuation h).2.1
    have hfl := label_function h f hf
    have hfn : label lex f ≠ .not := by rcases hfl with h | h <;> rw [h] <;> decide
    have hcall : functionCall lex f ("(".toList :: (args ++ [")".toList]) ++ op :: ts) =
        .ok (.var (f ++ "(".toList ++ args.flatten ++ ")".toList), op :: ts) := by
      rw [List.cons_append, functionCall, if_neg (by rw [hl]; decide), List.append_assoc, callArgs_balanced h hb,
        List.cons_append, callArgs, if_pos hr, callArgs]
      rfl
    rw [List.cons_append, parseCond, if_neg (by simp [nextIs, hfn]), if_pos (by
      unfold nextIs
      rcases hfl with h | h <;> simp [h])]
    rw [show (f :: ("(".toList :: (args ++ [")".toList]) ++ op :: ts)).headD [] = f from rfl,
      show (f :: ("(".toList :: (args ++ [")".toList]) ++ op :: ts)).drop 1 =
        "(".toList :: (args ++ [")".toList]) ++ op :: ts from rfl, hcall]
    show (if nextIs lex .left (op :: ts) then _ else _) = _
    rw [if_neg (by simp [nextIs, hlo])]
    exact comparison_parse h _ hop ha

theorem next_is {s : Str} {L : Label} (hs : label lex s = L) (ts : List Str) : nextIs lex L (s :: ts) = true := by
  simp [nextIs, hs]

theorem next_not {s : Str} {L M : Label} (hs : label lex s = L) (hne : L ≠ M) (ts : List Str) :
    ¬ nextIs lex M (s :: ts) = true := by
  simp [nextIs, hs, hne]

/-- What is proved about each level of the grammar. -/
def Parses (lex : Lex) : Level → Tree → List Str → Prop
  | .cond, t, ts => ∀ rest, Ev (fun n => parseCond lex n (ts ++ rest)) (.ok (t, rest))
  | .and, t, ts => ∀ rest v, Ev (fun n => andLoop lex n t rest) v → Ev (fun n => parseAnd lex n (ts ++ rest)) v
  | .or, t, ts => ∀ rest v, nextIs lex .and rest = false → Ev (fun n => orLoop lex n t rest) v →
      Ev (fun n => parseExpr lex n (ts ++ rest)) v

theorem andLoop_stop {t : Tree} {rest : List Str} (hr : nextIs lex .and rest = false) :
    Ev (fun n => andLoop lex n t rest) (.ok (t, rest)) :=
  Ev.const (fun n => by rw [andLoop, if_neg (by rw [hr]; simp)])

theorem orLoop_stop {t : Tree} {rest : List Str} (hr : nextIs lex .or rest = false) :
    Ev (fun n => orLoop lex n t rest) (.ok (t, rest)) :=
  Ev.const (fun n => by rw [orLoop, if_neg (by rw [hr]; simp)])

theorem written_parses (h : Sane lex) {lvl : Level} {t : Tree} {ts : List Str} (hw : Written lvl t ts) :
    Parses lex lvl t ts := by
  have hand := (label_keyword h).1
  have hor := (label_keyword h).2.1
  have hnot := (label_keyword h).2.2.1
  have hl := (label_punctuation h).1
  have hr := (label_punctuation h).2.1
  induction hw with
  | cmp hb hop ha =>
    intro rest
    rw [List.append_assoc]
    exact before_parse h hb hop (after_parse h ha rest)
  | not _ ih =>
    rename_i t _ _
    intro rest
    refine (ih rest).succ2 (k := fun _ => .ok (Tree.not t, rest)) ⟨0, fun _ _ => rfl⟩ (fun n hn _ => ?_)
    rw [List.cons_append, parseCond, if_pos (next_is hnot _)]
    show (parseCond lex n (_ ++ rest) >>= _) = _
    rw [hn]
    rfl
  | paren _ ih =>
    rename_i t a _
    intro rest
    have := ih (")".toList :: rest) (.ok (t, ")".toList :: rest)) (Bool.eq_false_iff.2 (next_not hr (by decide) _))
      (orLoop_stop (Bool.eq_false_iff.2 (next_not hr (by decide) _)))
    have hg : Ev (fun n => group lex n ("(".toList :: (a ++ [")".toList]) ++ rest)) (.ok (t, rest)) := by
      refine this.succ2 (k := fun _ => .ok (t, rest)) ⟨0, fun _ _ => rfl⟩ (fun n hn _ => ?_)
      rw [group]
      show (parseExpr lex n (a ++ [")".toList] ++ rest) >>= _) = _
      rw [List.append_assoc]
      rw [show [")".toList] ++ rest = ")".toList :: rest from rfl, hn]
      show (if _ then _ else _) = _
      rw [if_pos hr]
    refine hg.succ (fun n hn => ?_)
    rw [List.cons_append] at hn ⊢
    rw [parseCond, if_neg (next_not hl (by decide) _), if_neg (by
      rw [Bool.or_eq_true]
      exact not_or.2 ⟨next_not hl (by decide) _, next_not hl (by decide) _⟩),
      if_pos (next_is hl _), hn]
  | oneCond _ ih =>
    intro rest v hv
    refine (ih rest).succ2 hv (fun n hn hk => ?_)
    rw [parseAnd, hn]
    exact hk
  | and _ _ iha ihb =>
    rename_i s t a b _ _
    intro rest v hv
    rw [List.append_assoc]
    apply iha
    refine (ihb rest).succ2 hv (fun n hn hk => ?_)
    rw [List.cons_append, andLoop, if_pos (next_is hand _)]
    show (parseCond lex n (b ++ rest) >>= _) = _
    rw [hn]
    exact hk
  | oneAnd _ ih =>
    intro rest v hr' hv
    refine (ih rest _ (andLoop_stop hr')).succ2 hv (fun n hn hk => ?_)
    rw [parseExpr, hn]
    exact hk
  | or _ _ iha ihb =>
    rename_i s t a b _ _
    intro rest v hr' hv
    rw [List.append_assoc]
    apply iha
    · exact Bool.eq_false_iff.2 (next_not hor (by decide) _)
    · refine (ihb rest _ (andLoop_stop hr')).succ2 hv (fun n hn hk => ?_)
      rw [List.cons_append, orLoop, if_pos (next_is hor _)]
      show (parseAnd lex n (b ++ rest) >>= _) = _
      rw [hn]
      exact hk

/-- **C43** (partial): the tokens of a boolean expression, written in any way the grammar allows (NOT tightest, then
AND, then OR, parentheses anywhere), are parsed back to that expression, at any depth.
Missing for the full property: comparisons with NULL (see the `_fails` theorems) and calls of functions
after an operator; and the split of a text into its tokens. -/
theorem C43_parse_partial (h : Sane lex) (t : Tree) (ts : List Str) (hw : Written .or t ts) : parse lex ts = .ok t := by
  apply parse_eq lex ts t []
  have := written_parses h hw [] (.ok (t, [])) rfl (orLoop_stop rfl)
  rw [List.append_nil] at this
  exact this

/-- **C43**: a list of tokens is the text of at most one expression. -/
theorem C43_unambiguous (h : Sane lex) (s t : Tree) (ts : List Str) (hs : Written .or s ts) (ht : Written .or t ts) :
    s = t := by
  have := C43_parse_partial h s ts hs
  rw [C43_parse_partial h t ts ht] at this
  exact (Except.ok.inj this).symm

theorem written_exists (t : Tree) (h : Writable t) : ∃ ts, Written .cond t ts := by
  induction t with
  | cmp l op r =>
    obtain ⟨⟨a, ha⟩, hop, b, hb⟩ := h
    exact ⟨_, .cmp ha hop hb⟩
  | not t ih =>
    obtain ⟨a, ha⟩ := ih h
    exact ⟨_, .not ha⟩
  | and a b iha ihb =>
    obtain ⟨ta, ha⟩ := iha h.1
    obtain ⟨tb, hb⟩ := ihb h.2
    exact ⟨_, .paren (.oneAnd (.and (.oneCond ha) hb))⟩
  | or a b iha ihb =>
    obtain ⟨ta, ha⟩ := iha h.1
    obtain ⟨tb, hb⟩ := ihb h.2
    exact ⟨_, .paren (.or (.oneAnd (.oneCond ha)) (.oneCond hb))⟩

/-- **C43**: every expression whose comparisons can be written can be written, and what is written is parsed to it. -/
theorem C43_every_expression (h : Sane lex) (t : Tree) (hw : Writable t) :
    ∃ ts, Written .or t ts ∧ parse lex ts = .ok t := by
  obtain ⟨ts, hts⟩ := written_exists t hw
  have : Written .or t ts := .oneAnd (.oneCond hts)
  exact ⟨ts, this, C43_parse_partial h t ts this⟩

/-- **C43**: parsing ends, whatever the tokens: the model's bound is never what stops it. -/
theorem C43_ends (lex : Lex) (ts : List Str) : parse lex ts ≠ .error .overflow := by
  have := (parse_bound lex ts).1
  unfold parse
  intro he
  apply this
  cases hp : parseExpr lex (bound ts) ts with
  | error e => rw [hp] at he; injection he with he; rw [he]
  | ok v => rw [hp] at he; cases he

/-! ## NULL -/

theorem null_parse (h : Sane lex) (rest : List Str) :
    parseTerminal lex ("NULL".toList :: rest) = .ok (.null, "NULL".toList :: rest) := by
  rw [parseTerminal]
  simp only [(label_keyword h).2.2.2.2.2]

/-- A comparison with NULL ends what is read. -/
theorem null_ends (h : Sane lex) {l : Term} {a : List Str} (hb : Before l a) {op : Str}
    (hop : op ∈ Tokens.operators.map (·.1)) (rest : List Str) :
    Ev (fun n => parseExpr lex n (a ++ op :: "NULL".toList :: rest)) (.ok (.cmp l op .null, "NULL".toList :: rest)) := by
  have hn := (label_keyword h).2.2.2.2.2
  have h1 := before_parse h hb hop (null_parse h rest)
  have h2 : Ev (fun n => parseAnd lex n (a ++ op :: "NULL".toList :: rest)) (.ok (.cmp l op .null, "NULL".toList :: rest)) := by
    refine h1.succ2 (andLoop_stop (Bool.eq_false_iff.2 (next_not hn (by decide) _))) (fun n hn hk => ?_)
    rw [parseAnd, hn]
    exact hk
  refine h2.succ2 (orLoop_stop (Bool.eq_false_iff.2 (next_not hn (by decide) _))) (fun n hn hk => ?_)
  rw [parseExpr, hn]
  exact hk

theorem comparison_mem {op : Str} (h : op ∈ comparisonNames) : op ∈ Tokens.operators.map (·.1) :=
  (by decide +kernel : ∀ op ∈ comparisonNames, op ∈ Tokens.operators.map (·.1)) op h

/-- **C43** (partial): a single comparison with NULL is parsed to that comparison. -/
theorem C43_null_partial (h : Sane lex) (l : Term) (a : List Str) (hb : Before l a) (op : Str)
    (hop : op ∈ comparisonNames) : parse lex (a ++ [op, "NULL".toList]) = .ok (.cmp l op .null) :=
  parse_eq lex _ _ _ (null_ends h hb (comparison_mem hop) [])

/-- **C43** (fails): whatever follows a comparison with NULL is dropped, also `AND ...` and `OR ...`: the expression
`a IS NULL AND b = 1` is parsed to `a IS NULL`. -/
theorem C43_null_fails (h : Sane lex) (l : Term) (a : List Str) (hb : Before l a) (op : Str)
    (hop : op ∈ comparisonNames) (rest : List Str) :
    parse lex (a ++ op :: "NULL".toList :: rest) = .ok (.cmp l op .null) :=
  parse_eq lex _ _ _ (null_ends h hb (comparison_mem hop) rest)

theorem parse_error (lex : Lex) (ts : List Str) (e : Err) (he : e ≠ .overflow)
    (h : ∃ N, ∀ n, N ≤ n → parseExpr lex n ts = .error e) : parse lex ts = .error e := by
  obtain ⟨N, hN⟩ := h
  have hb := (parse_bound lex ts).1
  have := mono_le lex (Nat.le_max_left (bound ts) N) ts hb
  rw [hN _ (Nat.le_max_right _ _)] at this
  unfold parse
  rw [← this]
  rfl

/-- **C43** (fails): a comparison with NULL in parentheses is refused: `( a IS NULL )`. -/
theorem C43_null_in_parentheses_fails (h : Sane lex) (l : Term) (a : List Str) (hb : Before l a) (op : Str)
    (hop : op ∈ comparisonNames) (rest : List Str) :
    parse lex ("(".toList :: (a ++ op :: "NULL".toList :: ")".toList :: rest)) = .error .invalidExpression := by
  have hn := (label_keyword h).2.2.2.2.2
  have hl := (label_punctuation h).1
  have h0 := null_ends h hb (comparison_mem hop) (")".toList :: rest)
  have h1 : Ev (fun n => group lex n ("(".toList :: (a ++ op :: "NULL".toList :: ")".toList :: rest)))
      (.error .invalidExpression) := by
    refine h0.succ2 (k := fun _ => .error .invalidExpression) ⟨0, fun _ _ => rfl⟩ (fun n hk _ => ?_)
    rw [group]
    show (parseExpr lex n (a ++ op :: "NULL".toList :: ")".toList :: rest) >>= _) = _
    rw [hk]
    show (if _ then _ else _) = _
    rw [if_neg (by rw [hn]; decide)]
  have h2 : Ev (fun n => parseCond lex n ("(".toList :: (a ++ op :: "NULL".toList :: ")".toList :: rest)))
      (.error .invalidExpression) := by
    refine h1.succ (fun n hk => ?_)
    rw [parseCond, if_neg (next_not hl (by decide) _), if_neg (by
      rw [Bool.or_eq_true]
      exact not_or.2 ⟨next_not hl (by decide) _, next_not hl (by decide) _⟩), if_pos (next_is hl _), hk]
  have h3 : Ev (fun n => parseAnd lex n ("(".toList :: (a ++ op :: "NULL".toList :: ")".toList :: rest)))
      (.error .invalidExpression) := h2.succ (fun n hk => by rw [parseAnd, hk]; rfl)
  exact parse_error lex _ _ (by decide) (h3.succ (fun n hk => by rw [parseExpr, hk]; rfl))

/-! ## What is not an expression (C74) -/

/-- **C74** (fails): whatever follows an expression is ignored, unless it begins with AND or OR. -/
theorem C74_trailing_fails (h : Sane lex) (t : Tree) (ts : List Str) (hw : Written .or t ts) (k : Str) (rest : List Str)
    (h1 : label lex k ≠ .and) (h2 : label lex k ≠ .or) : parse lex (ts ++ k :: rest) = .ok t :=
  parse_eq lex _ _ (k :: rest) (written_parses h hw (k :: rest) (.ok (t, k :: rest)) (by simp [nextIs, h1])
    (orLoop_stop (by simp [nextIs, h2])))

/-- **C74** (fails): the call of a function before a parenthesis is dropped: `UPPER ( a ) ( b = 1 )` is parsed to
`b = 1`. -/
theorem C74_call_dropped_fails (h : Sane lex) (f : Str) (hf : f ∈ functions ∨ f ∈ aggregators) (args : List Str)
    (hb : Balanced args) (t : Tree) (ts : List Str) (hw : Written .or t ts) :
    parse lex (f :: "(".toList :: (args ++ ")".toList :: "(".toList :: (ts ++ [")".toList]))) = .ok t := by
  have hl := (label_punctuation h).1
  have hr := (label_punctuation h).2.1
  have hfl := label_function h f hf
  have hfn : label lex f ≠ .not := by rcases hfl with h | h <;> rw [h] <;> decide
  have h0 := written_parses h hw [")".toList] (.ok (t, [")".toList])) (Bool.eq_false_iff.2 (next_not hr (by decide) _))
    (orLoop_stop (Bool.eq_false_iff.2 (next_not hr (by decide) _)))
  have h1 : Ev (fun n => group lex n ("(".toList :: (ts ++ [")".toList]))) (.ok (t, [])) := by
    refine h0.succ2 (k := fun _ => .ok (t, [])) ⟨0, fun _ _ => rfl⟩ (fun n hk _ => ?_)
    rw [group]
    show (parseExpr lex n (ts ++ [")".toList]) >>= _) = _
    rw [hk]
    show (if _ then _ else _) = _
    rw [if_pos hr]
  have hcall : functionCall lex f ("(".toList :: (args ++ ")".toList :: "(".toList :: (ts ++ [")".toList]))) =
      .ok (.var (f ++ "(".toList ++ args.flatten ++ ")".toList), "(".toList :: (ts ++ [")".toList])) := by
    rw [functionCall, if_neg (by rw [hl]; decide), callArgs_balanced h hb, callArgs, if_pos hr, callArgs]
    rfl
  have h2 : Ev (fun n => parseCond lex n (f :: "(".toList :: (args ++ ")".toList :: "(".toList :: (ts ++ [")".toList]))))
      (.ok (t, [])) := by
    refine h1.succ (fun n hk => ?_)
    rw [parseCond, if_neg (by simp [nextIs, hfn]), if_pos (by
      unfold nextIs
      rcases hfl with h | h <;> simp [h])]
    rw [List.headD_cons, List.drop_one, List.tail_cons, hcall]
    show (if nextIs lex .left ("(".toList :: (ts ++ [")".toList])) = true then _ else _) = _
    rw [if_pos (next_is hl _), hk]
  have h3 : Ev (fun n => parseAnd lex n (f :: "(".toList :: (args ++ ")".toList :: "(".toList :: (ts ++ [")".toList]))))
      (.ok (t, [])) := h2.succ2 (andLoop_stop rfl) (fun n hn hk => by rw [parseAnd, hn]; exact hk)
  exact parse_eq lex _ _ _ (h3.succ2 (orLoop_stop rfl) (fun n hn hk => by rw [parseExpr, hn]; exact hk))

/-- **C74** (fails): a NOT is taken as an operand: `a = NOT` is accepted. -/
theorem C74_not_operand_fails (h : Sane lex) (l : Term) (a : List Str) (hb : Before l a) (op : Str)
    (hop : op ∈ Tokens.operators.map (·.1)) : parse lex (a ++ [op, "NOT".toList]) = .ok (.cmp l op .bareNot) := by
  have hn : parseTerminal lex ["NOT".toList] = .ok (.bareNot, []) := by
    rw [parseTerminal]
    simp only [(label_keyword h).2.2.1]
  have h1 := before_parse h hb hop hn
  have h2 : Ev (fun n => parseAnd lex n (a ++ [op, "NOT".toList])) (.ok (.cmp l op .bareNot, [])) :=
    h1.succ2 (andLoop_stop rfl) (fun n hn hk => by rw [parseAnd, hn]; exact hk)
  exact parse_eq lex _ _ _ (h2.succ2 (orLoop_stop rfl) (fun n hn hk => by rw [parseExpr, hn]; exact hk))

theorem listTerm_reads (lex : Lex) (ts : List Str) (acc : List Scalar) (t : Term) (rest : List Str)
    (h : listTerm lex ts acc = .ok (t, rest)) : ∃ ss c, ts = ss ++ c :: rest ∧ (∀ s ∈ ss, label lex s ≠ .right) ∧
      label lex c = .right ∧ t = .list (acc ++ (ss.filter (fun s => label lex s ≠ .comma)).map (interpretStr lex)) := by
  induction ts generalizing acc with
  | nil => cases h
  | cons a ts ih =>
    rw [listTerm] at h
    split at h
    · rename_i ha
      obtain ⟨rfl, rfl⟩ := Prod.mk.inj (Except.ok.inj h)
      exact ⟨[], a, rfl, by simp, ha, by simp⟩
    · rename_i ha
      split at h
      · rename_i hc
        obtain ⟨ss, c, h1, h2, h3, h4⟩ := ih _ h
        refine ⟨a :: ss, c, by rw [h1]; rfl, ?_, h3, ?_⟩
        · intro s hs
          rcases List.mem_cons.1 hs with rfl | hs
          · exact ha
          · exact h2 s hs
        · rw [h4, List.filter_cons, if_pos (by simpa using hc)]
          simp
      · rename_i hc
        obtain ⟨ss, c, h1, h2, h3, h4⟩ := ih _ h
        refine ⟨a :: ss, c, by rw [h1]; rfl, ?_, h3, ?_⟩
        · intro s hs
          rcases List.mem_cons.1 hs with rfl | hs
          · exact ha
          · exact h2 s hs
        · rw [h4, List.filter_cons, if_neg (by simpa using hc)]

theorem terminal_reads (lex : Lex) (ts : List Str) (t : Term) (rest : List Str)
    (h : parseTerminal lex ts = .ok (t, rest)) (h1 : t ≠ .null) (h2 : t ≠ .bareNot) :
    ∃ u, ts = u ++ rest ∧ Operand lex t u := by
  cases ts with
  | nil => cases h
  | cons a ts =>
    rw [parseTerminal] at h
    split at h
    · rename_i hl
      obtain ⟨i, hi, h⟩ := bind_ok h
      obtain ⟨rfl, rfl⟩ := Prod.mk.inj (Except.ok.inj h)
      exact ⟨[a], rfl, .int hl hi⟩
    · rename_i hl
      split at h
      · rename_i q hq
        obtain ⟨rfl, rfl⟩ := Prod.mk.inj (Except.ok.inj h)
        exact ⟨[a], rfl, .float hl hq⟩
      · cases h
    · rename_i hl
      obtain ⟨rfl, rfl⟩ := Prod.mk.inj (Except.ok.inj h)
      exact ⟨[a], rfl, .var hl⟩
    · obtain ⟨rfl, rfl⟩ := Prod.mk.inj (Except.ok.inj h)
      exact absurd rfl h2
    · rename_i hl
      obtain ⟨rfl, rfl⟩ := Prod.mk.inj (Except.ok.inj h)
      exact ⟨[a], rfl, .lit hl⟩
    · rename_i hl
      obtain ⟨rfl, rfl⟩ := Prod.mk.inj (Except.ok.inj h)
      exact ⟨[a], rfl, .bool hl⟩
    · obtain ⟨rfl, rfl⟩ := Prod.mk.inj (Except.ok.inj h)
      exact absurd rfl h1
    · rename_i hl
      split at h
      · rename_i d hd
        obtain ⟨rfl, rfl⟩ := Prod.mk.inj (Except.ok.inj h)
        exact ⟨[a], rfl, .date hl hd⟩
      · obtain ⟨rfl, rfl⟩ := Prod.mk.inj (Except.ok.inj h)
        exact absurd rfl h1
    · rename_i hl
      obtain ⟨ss, c, e1, e2, e3, e4⟩ := listTerm_reads lex ts [] t rest h
      subst e1 e4
      exact ⟨a :: (ss ++ [c]), by simp, .list hl e2 e3⟩
    · cases h

theorem next_label {l : Label} {ts : List Str} (h : nextIs lex l ts = true) : ∃ k us, ts = k :: us ∧ label lex k = l := by
  cases ts with
  | nil => cases h
  | cons k us => exact ⟨k, us, rfl, by simpa [nextIs] using h⟩

theorem Spec.Regular.sub {t s : Tree} (h : Regular t) (hs : ∀ c ∈ comparisons s, c ∈ comparisons t) : Regular s :=
  fun c hc => h c (hs c hc)

theorem Spec.NoCalls.right {a b : List Str} (h : NoCalls lex (a ++ b)) : NoCalls lex b :=
  fun s hs => h s (by simp [hs])

theorem comparison_reads (lex : Lex) (l : Term) (ts : List Str) (t : Tree) (rest : List Str)
    (h : comparison lex l ts = .ok (t, rest)) (ht : Regular t) (a : List Str) (hl : l ≠ .null → l ≠ .bareNot → Operand lex l a) :
    ∃ u, ts = u ++ rest ∧ Reads lex .cond t (a ++ u) := by
  cases ts with
  | nil => cases h
  | cons k ts =>
    rw [comparison] at h
    split at h
    · rename_i hk
      obtain ⟨⟨r, rest'⟩, hr, h⟩ := bind_ok h
      obtain ⟨rfl, rfl⟩ := Prod.mk.inj (Except.ok.inj h)
      obtain ⟨n1, n2, n3, n4⟩ := ht (l, lex.upper k, r) (by simp [comparisons])
      obtain ⟨u, rfl, hu⟩ := terminal_reads lex ts r rest' hr n3 n4
      exact ⟨k :: u, rfl, .cmp (hl n1 n2) hk hu⟩
    · cases h

theorem loop_sub (lex : Lex) (n : Nat) :
    (∀ l ts t rest, orLoop lex n l ts = .ok (t, rest) → ∀ c ∈ comparisons l, c ∈ comparisons t) ∧
    (∀ l ts t rest, andLoop lex n l ts = .ok (t, rest) → ∀ c ∈ comparisons l, c ∈ comparisons t) := by
  induction n with
  | zero => exact ⟨fun l ts t rest h => (by rw [orLoop] at h; cases h), fun l ts t rest h => (by rw [andLoop] at h; cases h)⟩
  | succ n ih =>
    refine ⟨fun l ts t rest h c hc => ?_, fun l ts t rest h c hc => ?_⟩
    · rw [orLoop] at h
      split at h
      · obtain ⟨⟨r, us⟩, _, h⟩ := bind_ok h
        exact ih.1 _ _ _ _ h c (by simp [comparisons, hc])
      · obtain ⟨rfl, _⟩ := Prod.mk.inj (Except.ok.inj h)
        exact hc
    · rw [andLoop] at h
      split at h
      · obtain ⟨⟨r, us⟩, _, h⟩ := bind_ok h
        exact ih.2 _ _ _ _ h c (by simp [comparisons, hc])
      · obtain ⟨rfl, _⟩ := Prod.mk.inj (Except.ok.inj h)
        exact hc

theorem reads_all (lex : Lex) (n : Nat) :
    (∀ ts t rest, parseExpr lex n ts = .ok (t, rest) → NoCalls lex ts → Regular t →
      ∃ u, ts = u ++ rest ∧ Reads lex .or t u) ∧
    (∀ l ts t rest a, orLoop lex n l ts = .ok (t, rest) → NoCalls lex ts → Regular t → Reads lex .or l a →
      ∃ u, ts = u ++ rest ∧ Reads lex .or t (a ++ u)) ∧
    (∀ ts t rest, parseAnd lex n ts = .ok (t, rest) → NoCalls lex ts → Regular t →
      ∃ u, ts = u ++ rest ∧ Reads lex .and t u) ∧
    (∀ l ts t rest a, andLoop lex n l ts = .ok (t, rest) → NoCalls lex ts → Regular t → Reads lex .and l a →
      ∃ u, ts = u ++ rest ∧ Reads lex .and t (a ++ u)) ∧
    (∀ ts t rest, parseCond lex n ts = .ok (t, rest) → NoCalls lex ts → Regular t →
      ∃ u, ts = u ++ rest ∧ Reads lex .cond t u) ∧
    (∀ ts t rest, group lex n ts = .ok (t, rest) → nextIs lex .left ts = true → NoCalls lex ts → Regular t →
      ∃ u, ts = u ++ rest ∧ Reads lex .cond t u) := by
  induction n with
  | zero =>
    refine ⟨fun ts t rest h => ?_, fun l ts t rest a h => ?_, fun ts t rest h => ?_, fun l ts t rest a h => ?_,
      fun ts t rest h => ?_, fun ts t rest h => ?_⟩
    · rw [parseExpr] at h; cases h
    · rw [orLoop] at h; cases h
    · rw [parseAnd] at h; cases h
    · rw [andLoop] at h; cases h
    · rw [parseCond] at h; cases h
    · rw [group] at h; cases h
  | succ n ih =>
    obtain ⟨h1, h2, h3, h4, h5, h6⟩ := ih
    refine ⟨fun ts t rest h hc ht => ?_, fun l ts t rest a h hc ht ha => ?_, fun ts t rest h hc ht => ?_,
      fun l ts t rest a h hc ht ha => ?_, fun ts t rest h hc ht => ?_, fun ts t rest h hn hc ht => ?_⟩
    · rw [parseExpr] at h
      obtain ⟨⟨l, us⟩, hl, h'⟩ := bind_ok h
      obtain ⟨u, rfl, hu⟩ := h3 _ _ _ hl hc (Regular.sub ht ((loop_sub lex n).1 _ _ _ _ h'))
      obtain ⟨v, rfl, hv⟩ := h2 _ _ _ _ _ h' hc.right ht (.oneAnd hu)
      exact ⟨u ++ v, by simp, hv⟩
    · rw [orLoop] at h
      split at h
      · rename_i hk
        obtain ⟨k, ts, rfl, hk'⟩ := next_label hk
        obtain ⟨⟨r, us⟩, hr, h'⟩ := bind_ok h
        have hc' : NoCalls lex ts := hc.right (a := [k])
        have hr : parseAnd lex n ts = .ok (r, us) := hr
        have hlr := Regular.sub ht ((loop_sub lex n).1 _ _ _ _ h')
        obtain ⟨u, rfl, hu⟩ := h3 _ _ _ hr hc' (Regular.sub hlr (fun c hc => by simp [comparisons, hc]))
        obtain ⟨v, rfl, hv⟩ := h2 _ _ _ _ _ h' hc'.right ht (.or ha hk' hu)
        exact ⟨k :: (u ++ v), by simp, by simpa using hv⟩
      · obtain ⟨rfl, rfl⟩ := Prod.mk.inj (Except.ok.inj h)
        exact ⟨[], rfl, by simpa using ha⟩
    · rw [parseAnd] at h
      obtain ⟨⟨l, us⟩, hl, h'⟩ := bind_ok h
      obtain ⟨u, rfl, hu⟩ := h5 _ _ _ hl hc (Regular.sub ht ((loop_sub lex n).2 _ _ _ _ h'))
      obtain ⟨v, rfl, hv⟩ := h4 _ _ _ _ _ h' hc.right ht (.oneCond hu)
      exact ⟨u ++ v, by simp, hv⟩
    · rw [andLoop] at h
      split at h
      · rename_i hk
        obtain ⟨k, ts, rfl, hk'⟩ := next_label hk
        obtain ⟨⟨r, us⟩, hr, h'⟩ := bind_ok h
        have hc' : NoCalls lex ts := hc.right (a := [k])
        have hr : parseCond lex n ts = .ok (r, us) := hr
        have hlr := Regular.sub ht ((loop_sub lex n).2 _ _ _ _ h')
        obtain ⟨u, rfl, hu⟩ := h5 _ _ _ hr hc' (Regular.sub hlr (fun c hc => by simp [comparisons, hc]))
        obtain ⟨v, rfl, hv⟩ := h4 _ _ _ _ _ h' hc'.right ht (.and ha hk' hu)
        exact ⟨k :: (u ++ v), by simp, by simpa using hv⟩
      · obtain ⟨rfl, rfl⟩ := Prod.mk.inj (Except.ok.inj h)
        exact ⟨[], rfl, by simpa using ha⟩
    · rw [parseCond.eq_2 lex ts n] at h
      split at h
      · rename_i hk
        obtain ⟨k, ts, rfl, hk'⟩ := next_label hk
        obtain ⟨⟨r, us⟩, hr, h'⟩ := bind_ok h
        have hr : parseCond lex n ts = .ok (r, us) := hr
        obtain ⟨rfl, rfl⟩ := Prod.mk.inj (Except.ok.inj h')
        obtain ⟨u, rfl, hu⟩ := h5 _ _ _ hr (hc.right (a := [k])) (Regular.sub ht (fun c hc => by simpa [comparisons] using hc))
        exact ⟨k :: u, rfl, .not hk' hu⟩
      · split at h
        · rename_i hk
          rw [Bool.or_eq_true] at hk
          rcases hk with hk | hk
          · obtain ⟨k, ts, rfl, hk'⟩ := next_label hk
            exact absurd hk' (hc k (by simp)).1
          · obtain ⟨k, ts, rfl, hk'⟩ := next_label hk
            exact absurd hk' (hc k (by simp)).2
        · split at h
          · rename_i hk
            exact h6 _ _ _ h hk hc ht
          · obtain ⟨⟨l, us⟩, hl, h'⟩ := bind_ok h
            by_cases hr : l ≠ .null ∧ l ≠ .bareNot
            · obtain ⟨u, rfl, hu⟩ := terminal_reads lex ts l us hl hr.1 hr.2
              obtain ⟨v, rfl, hv⟩ := comparison_reads lex l us t rest h' ht u (fun _ _ => hu)
              exact ⟨u ++ v, by simp, hv⟩
            · exfalso
              cases us with
              | nil => cases h'
              | cons k us =>
                have h' : comparison lex l (k :: us) = .ok (t, rest) := h'
                rw [comparison] at h'
                split at h'
                · obtain ⟨⟨r, vs⟩, _, h'⟩ := bind_ok h'
                  obtain ⟨rfl, _⟩ := Prod.mk.inj (Except.ok.inj h')
                  obtain ⟨n1, n2, _, _⟩ := ht (l, lex.upper k, r) (by simp [comparisons])
                  exact hr ⟨n1, n2⟩
                · cases h'
    · rw [group] at h
      obtain ⟨k, ts, rfl, hk⟩ := next_label hn
      obtain ⟨⟨r, us⟩, hr, h'⟩ := bind_ok h
      have hr : parseExpr lex n ts = .ok (r, us) := hr
      cases us with
      | nil => cases h'
      | cons c us =>
        dsimp only at h'
        split at h'
        · rename_i hcr
          obtain ⟨rfl, rfl⟩ := Prod.mk.inj (Except.ok.inj h')
          obtain ⟨u, rfl, hu⟩ := h1 _ _ _ hr (hc.right (a := [k])) ht
          exact ⟨k :: (u ++ [c]), by simp, .paren hk hu hcr⟩
        · cases h'

/-- **C74** (partial): what is accepted begins with an expression of the grammar, and the tree is that expression.
Missing for the full property: the tokens that are left are ignored; NULL and NOT as operands; calls of
functions. -/
theorem C74_accepted_partial (lex : Lex) (ts : List Str) (t : Tree) (h : parse lex ts = .ok t) (hc : NoCalls lex ts)
    (ht : Regular t) : ∃ u rest, ts = u ++ rest ∧ Reads lex .or t u := by
  unfold parse at h
  cases hp : parseExpr lex (bound ts) ts with
  | error e => rw [hp] at h; cases h
  | ok v =>
    rw [hp] at h
    obtain ⟨s, rest⟩ := v
    obtain rfl : s = t := Except.ok.inj h
    obtain ⟨u, hu, hr⟩ := (reads_all lex _).1 ts s rest hp hc ht
    exact ⟨u, rest, hu, hr⟩

theorem listTerm_suffix (lex : Lex) (ts : List Str) (acc : List Scalar) (t : Term) (rest : List Str)
    (h : listTerm lex ts acc = .ok (t, rest)) : ∀ s ∈ rest, s ∈ ts := by
  obtain ⟨ss, c, rfl, _⟩ := listTerm_reads lex ts acc t rest h
  intro s hs
  simp [hs]

theorem terminal_suffix (lex : Lex) (ts : List Str) (t : Term) (rest : List Str)
    (h : parseTerminal lex ts = .ok (t, rest)) : ∀ s ∈ rest, s ∈ ts := by
  cases ts with
  | nil => cases h
  | cons a ts =>
    intro s hs
    rw [parseTerminal] at h
    split at h
    · obtain ⟨i, _, h⟩ := bind_ok h
      obtain ⟨_, rfl⟩ := Prod.mk.inj (Except.ok.inj h)
      simp [hs]
    · split at h
      · obtain ⟨_, rfl⟩ := Prod.mk.inj (Except.ok.inj h)
        simp [hs]
      · cases h
    all_goals try (obtain ⟨_, rfl⟩ := Prod.mk.inj (Except.ok.inj h); first | exact hs | (simp [hs]; done))
    · split at h <;> (obtain ⟨_, rfl⟩ := Prod.mk.inj (Except.ok.inj h); simp [hs])
    · have := listTerm_suffix lex ts [] t rest h s hs
      simp [this]
    · cases h

theorem callArgs_suffix (lex : Lex) (ts : List Str) (n : Nat) (acc s : Str) (rest : List Str)
    (h : callArgs lex n ts acc = .ok (s, rest)) : ∀ s ∈ rest, s ∈ ts := by
  induction ts generalizing n acc with
  | nil =>
    cases n with
    | zero =>
      rw [callArgs] at h
      obtain ⟨_, rfl⟩ := Prod.mk.inj (Except.ok.inj h)
      exact fun _ h => h
    | succ n => cases h
  | cons a ts ih =>
    intro x hx
    cases n with
    | zero =>
      rw [callArgs] at h
      obtain ⟨_, rfl⟩ := Prod.mk.inj (Except.ok.inj h)
      exact hx
    | succ n =>
      rw [callArgs] at h
      split at h
      · simp [ih _ _ h x hx]
      · split at h <;> simp [ih _ _ h x hx]

theorem functionCall_suffix (lex : Lex) (f : Str) (ts : List Str) (t : Term) (rest : List Str)
    (h : functionCall lex f ts = .ok (t, rest)) : ∀ s ∈ rest, s ∈ ts := by
  cases ts with
  | nil => cases h
  | cons a ts =>
    rw [functionCall] at h
    split at h
    · cases h
    · obtain ⟨⟨s, us⟩, hs, h⟩ := bind_ok h
      obtain ⟨_, rfl⟩ := Prod.mk.inj (Except.ok.inj h)
      intro x hx
      simp [callArgs_suffix lex ts 1 _ s us hs x hx]

theorem needs_operator (lex : Lex) (n : Nat) :
    (∀ ts v, parseExpr lex n ts = .ok v → ∃ s ∈ ts, label lex s = .operator) ∧
    (∀ ts v, parseAnd lex n ts = .ok v → ∃ s ∈ ts, label lex s = .operator) ∧
    (∀ ts v, parseCond lex n ts = .ok v → ∃ s ∈ ts, label lex s = .operator) ∧
    (∀ ts v, group lex n ts = .ok v → ∃ s ∈ ts, label lex s = .operator) := by
  have hcmp : ∀ l ts v, comparison lex l ts = .ok v → ∃ s ∈ ts, label lex s = .operator := by
    intro l ts v h
    cases ts with
    | nil => cases h
    | cons k ts =>
      rw [comparison] at h
      split at h
      · rename_i hk; exact ⟨k, by simp, hk⟩
      · cases h
  induction n with
  | zero =>
    refine ⟨fun ts v h => ?_, fun ts v h => ?_, fun ts v h => ?_, fun ts v h => ?_⟩
    · rw [parseExpr] at h; cases h
    · rw [parseAnd] at h; cases h
    · rw [parseCond] at h; cases h
    · rw [group] at h; cases h
  | succ n ih =>
    obtain ⟨h1, h2, h3, h4⟩ := ih
    refine ⟨fun ts v h => ?_, fun ts v h => ?_, fun ts v h => ?_, fun ts v h => ?_⟩
    · rw [parseExpr] at h
      obtain ⟨_, hv, _⟩ := bind_ok h
      exact h2 _ _ hv
    · rw [parseAnd] at h
      obtain ⟨_, hv, _⟩ := bind_ok h
      exact h3 _ _ hv
    · rw [parseCond.eq_2 lex ts n] at h
      split at h
      · obtain ⟨_, hv, _⟩ := bind_ok h
        obtain ⟨s, hs, ho⟩ := h3 _ _ hv
        exact ⟨s, List.mem_of_mem_drop hs, ho⟩
      · split at h
        · obtain ⟨⟨t, us⟩, hv, h⟩ := bind_ok h
          have hsub := functionCall_suffix lex _ _ _ _ hv
          dsimp only at h
          split at h
          · obtain ⟨s, hs, ho⟩ := h4 _ _ h
            exact ⟨s, List.mem_of_mem_drop (hsub s hs), ho⟩
          · obtain ⟨s, hs, ho⟩ := hcmp _ _ _ h
            exact ⟨s, List.mem_of_mem_drop (hsub s hs), ho⟩
        · split at h
          · exact h4 _ _ h
          · obtain ⟨⟨t, us⟩, hv, h⟩ := bind_ok h
            obtain ⟨s, hs, ho⟩ := hcmp _ _ _ h
            exact ⟨s, terminal_suffix lex _ _ _ hv s hs, ho⟩
    · rw [group] at h
      obtain ⟨_, hv, _⟩ := bind_ok h
      obtain ⟨s, hs, ho⟩ := h1 _ _ hv
      exact ⟨s, List.mem_of_mem_drop hs, ho⟩

/-- **C74**: tokens without an operator are refused. -/
theorem C74_no_operator (lex : Lex) (ts : List Str) (ho : ∀ s ∈ ts, label lex s ≠ .operator) :
    ∃ e, parse lex ts = .error e := by
  unfold parse
  cases hp : parseExpr lex (bound ts) ts with
  | error e => exact ⟨e, rfl⟩
  | ok v =>
    obtain ⟨s, hs, h⟩ := (needs_operator lex _).1 ts v hp
    exact absurd h (ho s hs)

/-! ## Cases -/

/-- A library for the examples: ASCII, no floats. -/
def sampleLex : Lex := ⟨fun s => s.map Char.toUpper, fun _ => none, fun c => c.isAlpha || c == '_'⟩

theorem sampleLex_sane : Sane sampleLex :=
  ⟨⟨fun c => [c.toUpper], fun s => by induction s with
    | nil => rfl
    | cons c s ih => rw [List.flatMap_cons, ← ih]; rfl, fun _ _ => rfl⟩, fun _ _ _ => rfl, fun _ h => h⟩

def toks (l : List String) : List Str := l.map String.toList

theorem name_a : Name "a".toList := ⟨⟨_, _, rfl, by decide⟩, by decide, by decide⟩
theorem name_b : Name "b".toList := ⟨⟨_, _, rfl, by decide⟩, by decide, by decide⟩

/-- `NOT a = 1 AND ( b > 2 OR a = 'x' )` -/
def sampleTokens : List Str := toks ["NOT", "a", "=", "1", "AND", "(", "b", ">", "2", "OR", "a", "=", "'x'", ")"]

def sampleTree : Tree := .and (.not (.cmp (.var "a".toList) "=".toList (.int 1)))
  (.or (.cmp (.var "b".toList) ">".toList (.int 2)) (.cmp (.var "a".toList) "=".toList (.lit "x".toList)))

theorem sample_written : Written .or sampleTree sampleTokens := by
  have c1 : Written .cond (.cmp (.var "a".toList) "=".toList (.int 1)) (toks ["a", "=", "1"]) :=
    .cmp (.plain (.name name_a)) (by decide) (.plain (.int 1))
  have c2 : Written .cond (.cmp (.var "b".toList) ">".toList (.int 2)) (toks ["b", ">", "2"]) :=
    .cmp (.plain (.name name_b)) (by decide) (.plain (.int 2))
  have c3 : Written .cond (.cmp (.var "a".toList) "=".toList (.lit "x".toList)) (toks ["a", "=", "'x'"]) :=
    .cmp (.plain (.name name_a)) (by decide) (.plain (.text (q := '\'') (Or.inr rfl) (by decide)))
  exact .oneAnd (.and (.oneCond (.not c1)) (.paren (.or (.oneAnd (.oneCond c2)) (.oneCond c3))))

example : parse sampleLex sampleTokens = .ok sampleTree := C43_parse_partial sampleLex_sane _ _ sample_written

example : Writable sampleTree :=
  ⟨⟨⟨_, .plain (.name name_a)⟩, by decide, _, .plain (.int 1)⟩,
    ⟨⟨_, .plain (.name name_b)⟩, by decide, _, .plain (.int 2)⟩,
    ⟨⟨_, .plain (.name name_a)⟩, by decide, _, .plain (.text (q := '\'') (Or.inr rfl) (by decide))⟩⟩

/-- A call and a list. -/
example : parse sampleLex (toks ["LEN", "(", "a", ")", "IN", "(", "1", ",", "2", ")"]) =
    .ok (.cmp (.var "LEN(a)".toList) "IN".toList (.list [.int 1, .int 2])) :=
  C43_parse_partial sampleLex_sane _ _ (.oneAnd (.oneCond (.cmp (.call (f := "LEN".toList) (args := toks ["a"])
    (Or.inl (by decide)) (.token (by unfold isParen; decide) .nil)) (by decide)
    (.list (.more (.int 1) (.one (.int 2)))))))

example : parse sampleLex (toks ["a", "IS", "NULL", "AND", "b", "=", "1"]) = .ok (.cmp (.var "a".toList) "IS".toList .null) :=
  C43_null_fails sampleLex_sane _ _ (.plain (.name name_a)) _ (by decide) _

example : parse sampleLex (toks ["(", "a", "IS", "NULL", ")"]) = .error .invalidExpression :=
  C43_null_in_parentheses_fails sampleLex_sane _ _ (.plain (.name name_a)) _ (by decide) []

example : parse sampleLex (sampleTokens ++ toks ["b", ">", "2"]) = .ok sampleTree :=
  C74_trailing_fails sampleLex_sane _ _ sample_written "b".toList _
    (by rw [label_name sampleLex_sane _ name_b]; decide) (by rw [label_name sampleLex_sane _ name_b]; decide)

example : parse sampleLex ("UPPER".toList :: "(".toList :: (toks ["a"] ++ ")".toList :: "(".toList ::
    (sampleTokens ++ [")".toList]))) = .ok sampleTree :=
  C74_call_dropped_fails sampleLex_sane _ (Or.inl (by decide)) _ (.token (by unfold isParen; decide) .nil) _ _ sample_written

example : NoCalls sampleLex sampleTokens ∧ Regular sampleTree := by
  unfold NoCalls Regular
  decide +kernel

/-- Refused: nothing, a name, a missing operand, a missing parenthesis. -/
example : ∀ ts ∈ [[], toks ["a"], toks ["a", "="], toks ["(", "a", "=", "1"], toks ["a", "=", "1", "AND"]],
    ∃ e, parse sampleLex ts = .error e := by
  intro ts hts
  have : ∀ ts ∈ [[], toks ["a"], toks ["a", "="], toks ["(", "a", "=", "1"], toks ["a", "=", "1", "AND"]],
    (parse sampleLex ts).isOk = false := by decide +kernel
  have := this ts hts
  cases h : parse sampleLex ts with
  | error e => exact ⟨e, rfl⟩
  | ok v => rw [h] at this; cases this

end Mabel.Expression
