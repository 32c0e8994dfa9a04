import Verif.Lemmas.Sql
import Verif.Props.Tokenizer
import Verif.Props.Expression

/-! # C47, C48: SQL statements -/

namespace Mabel.Sql
open Mabel.Py Mabel.Dates Mabel.Tokens Mabel.Sql.Spec
open Mabel.Tokenizer hiding Blank keywords
open Mabel.Tokenizer.Spec (SaneRe capitals isWordChar)
open Mabel.Expression (of_ascii alphanum_ascii upper_ascii label_paren label_punctuation)
open Mabel.Expression.Spec (Sane isParen)
open Mabel.Evaluator (space_facts space_nonword)

variable {re : Re} {lex : Lex} {ch : Chars}

/-! ## C47 -/

theorem filter_good (s : Str) : replace "_".toList [] (replace "-".toList [] (replace "/".toList [] (replace ".".toList [] s))) =
    s.filter (fun c => c ≠ '.' ∧ c ≠ '/' ∧ c ≠ '-' ∧ c ≠ '_') := by
  rw [show "_".toList = ['_'] from rfl, show "-".toList = ['-'] from rfl, show "/".toList = ['/'] from rfl,
    show ".".toList = ['.'] from rfl, replace_drop, replace_drop, replace_drop, replace_drop, List.filter_filter, List.filter_filter,
    List.filter_filter]
  congr 1
  funext c
  simp only [ne_eq, decide_not, Bool.decide_and]
  cases decide (c = '.') <;> cases decide (c = '/') <;> cases decide (c = '-') <;> cases decide (c = '_') <;> rfl

/-- C47: exactly the good names are accepted. -/
theorem C47_accepted_iff (hch : SaneChars ch) (s : Str) : validateDataset ch s = .ok () ↔ GoodName ch s := by
  cases s with
  | nil =>
    constructor
    · intro h; cases h
    · intro h; obtain ⟨c, cs, h, _⟩ := h.first; cases h
  | cons c cs =>
    rw [validateDataset]
    constructor
    · intro h
      by_cases hc : ch.alpha c = true
      · rw [hc] at h
        simp only [Bool.not_true, Bool.false_eq_true, if_false] at h
        split at h
        · cases h
        · rename_i hrep
          simp only [Bool.or_eq_true, not_or] at hrep
          rw [filter_good] at h
          split at h
          · cases h
          · rename_i hal
            simp only [Bool.or_eq_true, not_or, Bool.not_eq_true', Bool.not_eq_false] at hal
            refine ⟨⟨c, cs, rfl, hc⟩, ?_, ?_, ?_, ?_⟩
            · intro d hd
              by_cases hp : d ≠ '.' ∧ d ≠ '/' ∧ d ≠ '-' ∧ d ≠ '_'
              · exact Or.inl (List.all_eq_true.1 hal.2 d (List.mem_filter.2 ⟨hd, by simpa using hp⟩))
              · by_contra hno
                simp only [not_or] at hno
                exact hp hno.2
            · intro hx; exact hrep.1.1 ((contains_pair '.' _).2 hx)
            · intro hx; exact hrep.1.2 ((contains_pair '/' _).2 hx)
            · intro hx; exact hrep.2 ((contains_pair '-' _).2 hx)
      · rw [Bool.not_eq_true] at hc
        rw [hc] at h
        cases h
    · intro h
      obtain ⟨d, ds, e, hd⟩ := h.first
      injection e with e1 e2
      subst e1 e2
      have hal := hch.alpha c hd
      rw [hd, if_neg (by decide), if_neg, filter_good]
      · have hkeep : c ≠ '.' ∧ c ≠ '/' ∧ c ≠ '-' ∧ c ≠ '_' := by
          obtain ⟨h1, h2, h3, h4⟩ := hch.punctuation
          refine ⟨?_, ?_, ?_, ?_⟩ <;> (rintro rfl; simp_all)
        rw [if_neg]
        simp only [Bool.or_eq_true, not_or, Bool.not_eq_true', Bool.not_eq_false]
        constructor
        · rw [List.filter_cons_of_pos (by simpa using hkeep)]
          simp
        · rw [List.all_eq_true]
          intro d hd
          obtain ⟨h1, h2⟩ := List.mem_filter.1 hd
          simp only [decide_eq_true_eq] at h2
          rcases h.chars d h1 with h | h | h | h | h
          · exact h
          · exact absurd h h2.1
          · exact absurd h h2.2.1
          · exact absurd h h2.2.2.1
          · exact absurd h h2.2.2.2
      · simp only [Bool.or_eq_true, not_or]
        exact ⟨⟨fun hx => h.dots ((contains_pair '.' _).1 hx), fun hx => h.slashes ((contains_pair '/' _).1 hx)⟩,
          fun hx => h.hyphens ((contains_pair '-' _).1 hx)⟩

/-- The dataset of a state has no dots. -/
def NoDots (p : Parsed) : Prop := ∀ d, p.source = some (.dataset d) → '.' ∉ d

theorem step_noDots {p p' : Parsed} {t : Str} {ts ts' : List Str} (h : step lex p t ts = .ok (p', ts')) (hp : NoDots p) : NoDots p' := by
  unfold step at h
  split at h
  · injection h with h; injection h with h _; exact h ▸ hp
  split at h
  · unfold stepSelect at h
    split at h
    · cases h
    · split at h
      · injection h with h; injection h with h _; subst h; exact hp
      · injection h with h; injection h with h _; subst h; exact hp
  split at h
  · unfold stepFrom at h
    split at h
    · cases h
    · split at h
      · split at h
        · cases h
        · injection h with h; injection h with h _; subst h
          intro d hd; cases hd
      · injection h with h; injection h with h _; subst h
        intro d hd
        injection hd with hd
        injection hd with hd
        rw [← hd, show ".".toList = ['.'] from rfl, show "/".toList = ['/'] from rfl, replace_char]
        intro hm
        obtain ⟨c, _, hc⟩ := List.mem_map.1 hm
        split at hc
        · cases hc
        · rename_i hne; exact hne hc
  split at h
  · injection h with h; injection h with h _; subst h; exact hp
  split at h
  · injection h with h; injection h with h _; subst h; exact hp
  split at h
  · injection h with h; injection h with h _; subst h; exact hp
  split at h
  · injection h with h
    unfold stepOrder at h
    simp only at h
    split at h
    · injection h with h _; subst h; exact hp
    · split at h
      · injection h with h _; subst h; exact hp
      · injection h with h _; subst h; exact hp
  split at h
  · split at h
    · cases h
    · injection h with h; injection h with h _; subst h; exact hp
  · injection h with h; injection h with h _; exact h ▸ hp

theorem run_noDots (n : Nat) (p p' : Parsed) (ts : List Str) (h : run lex n p ts = some (.ok p')) (hp : NoDots p) : NoDots p' := by
  induction n generalizing p ts with
  | zero =>
    cases ts with
    | nil => rw [run] at h; injection h with h; injection h with h; exact h ▸ hp
    | cons t ts => cases h
  | succ n ih =>
    cases ts with
    | nil => rw [run] at h; injection h with h; injection h with h; exact h ▸ hp
    | cons t ts =>
      rw [run] at h
      cases hs : step lex p t ts with
      | error e => rw [hs] at h; injection h with h; cases h
      | ok st =>
        rw [hs] at h
        exact ih _ _ h (step_noDots hs hp)

theorem finish_ok {p q : Parsed} (h : finish ch p = .ok q) : q = p ∧ p.source ≠ none ∧ p.select ≠ none ∧
    ∀ d, p.source = some (.dataset d) → validateDataset ch d = .ok () := by
  unfold finish at h
  cases hv : checkSource ch p.source with
  | error e => rw [hv] at h; cases h
  | ok u =>
    rw [hv] at h
    have h : (if p.source = none ∨ p.select = none then Except.error Err.sqlError else .ok p) = .ok q := h
    split at h
    · cases h
    · rename_i hn
      simp only [not_or] at hn
      injection h with h
      refine ⟨h.symm, hn.1, hn.2, ?_⟩
      intro d hd
      rw [hd] at hv
      exact hv

theorem parse_ok {n : Nat} {raw : Str} {p : Parsed} (h : parse re lex ch n raw = some (.ok p)) :
    run lex n {} (parts re (clean (removeComments raw))) = some (.ok p) ∧ finish ch p = .ok p := by
  unfold parse at h
  cases hr : run lex n {} (parts re (clean (removeComments raw))) with
  | none => rw [hr] at h; cases h
  | some r =>
    rw [hr] at h
    cases r with
    | error e => cases h
    | ok q =>
      have h : finish ch q = .ok p := Option.some.inj h
      have := (finish_ok h).1
      subst this
      exact ⟨rfl, h⟩

/-- C47: the dataset of any statement that is accepted has a good name, without dots. -/
theorem C47_parsed (hch : SaneChars ch) (raw : Str) (p : Parsed) (d : Str) (h : Parses re lex ch raw (.ok p))
    (hd : (view p).source = some (.dataset d)) : GoodName ch d ∧ '.' ∉ d := by
  obtain ⟨n, h⟩ := h
  obtain ⟨h1, h2⟩ := parse_ok h
  have hs : p.source = some (.dataset d) := by
    unfold view at hd
    simp only at hd
    cases hsrc : p.source with
    | none => rw [hsrc] at hd; cases hd
    | some s =>
      rw [hsrc] at hd
      cases s with
      | subquery ps => cases hd
      | dataset d' => injection hd with hd; injection hd with hd; rw [hd]
  exact ⟨(C47_accepted_iff hch d).1 ((finish_ok h2).2.2.2 d hs), run_noDots n {} p _ h1 (by intro d hd; cases hd) d hs⟩

theorem split_ne (c : Char) (s : Str) : split c s ≠ [] := by
  cases s with
  | nil => simp [split]
  | cons x s =>
    rw [split]
    split
    · simp
    · split <;> simp

theorem split_infix (c : Char) : ∀ (s x : Str), x ∈ split c s → ∃ a b, s = a ++ x ++ b
  | [], x, h => by
    rw [split, List.mem_singleton] at h
    exact ⟨[], [], by rw [h]; rfl⟩
  | y :: s, x, h => by
    rw [split] at h
    by_cases hy : y = c
    · rw [if_pos hy] at h
      rcases List.mem_cons.1 h with rfl | h
      · exact ⟨[], y :: s, rfl⟩
      · obtain ⟨a, b, e⟩ := split_infix c s x h
        exact ⟨y :: a, b, by rw [e]; rfl⟩
    · rw [if_neg hy] at h
      cases hs : split c s with
      | nil => exact absurd hs (split_ne c s)
      | cons p ps =>
        rw [hs] at h
        rcases List.mem_cons.1 h with rfl | h
        · -- the first component is a prefix
          have : ∀ (s p : Str) (ps : List Str), split c s = p :: ps → ∃ b, s = p ++ b := by
            intro s
            induction s with
            | nil => intro p ps h; rw [split] at h; injection h with h _; exact ⟨[], by rw [← h]; rfl⟩
            | cons z s ih =>
              intro p ps h
              rw [split] at h
              by_cases hz : z = c
              · rw [if_pos hz] at h; injection h with h _; exact ⟨z :: s, by rw [← h]; rfl⟩
              · rw [if_neg hz] at h
                cases hs : split c s with
                | nil => exact absurd hs (split_ne c s)
                | cons q qs =>
                  rw [hs] at h
                  injection h with h _
                  obtain ⟨b, e⟩ := ih q qs hs
                  exact ⟨b, by rw [← h, e]; rfl⟩
          obtain ⟨b, e⟩ := this s p ps hs
          exact ⟨[], b, by rw [e]; rfl⟩
        · obtain ⟨a, b, e⟩ := split_infix c s x (by rw [hs]; exact List.mem_cons_of_mem _ h)
          exact ⟨y :: a, b, by rw [e]; rfl⟩

theorem split_empty : ∀ (s : Str), [] ∈ (split '/' s).dropLast → s.head? = some '/' ∨ ∃ a b, s = a ++ '/' :: '/' :: b
  | [], h => by simp [split] at h
  | y :: s, h => by
    rw [split] at h
    by_cases hy : y = '/'
    · exact Or.inl (by rw [hy]; rfl)
    · right
      rw [if_neg hy] at h
      cases hs : split '/' s with
      | nil => exact absurd hs (split_ne _ s)
      | cons p ps =>
        rw [hs] at h
        cases ps with
        | nil => simp at h
        | cons q qs =>
          simp only [List.dropLast_cons₂] at h
          rcases List.mem_cons.1 h with h | h
          · cases h
          · have ih := split_empty s (by rw [hs, List.dropLast_cons₂]; exact List.mem_cons_of_mem _ h)
            rcases ih with ih | ⟨a, b, e⟩
            · -- the first component is empty, so another one must be
              cases s with
              | nil => cases ih
              | cons z s =>
                injection ih with ih
                subst ih
                rw [split, if_pos rfl] at hs
                injection hs with h1 h2
                rcases split_empty s (by rw [h2]; exact h) with h3 | ⟨a, b, e⟩
                · cases s with
                  | nil => cases h3
                  | cons w s =>
                    injection h3 with h3
                    subst h3
                    exact ⟨[y], s, rfl⟩
                · exact ⟨y :: '/' :: a, b, by rw [e]; rfl⟩
            · exact ⟨y :: a, b, by rw [e]; rfl⟩

/-- C47: a good name is relative, no part of it is the parent directory, and no part but perhaps the last is empty. -/
theorem C47_components (hch : SaneChars ch) (s : Str) (h : GoodName ch s) :
    s.head? ≠ some '/' ∧ (∀ x ∈ split '/' s, x ≠ "..".toList) ∧ ∀ x ∈ (split '/' s).dropLast, x ≠ [] := by
  have hhead : s.head? ≠ some '/' := by
    obtain ⟨c, cs, rfl, hc⟩ := h.first
    intro e
    injection e with e
    have := hch.alpha c hc
    rw [e, hch.punctuation.2.1] at this
    cases this
  refine ⟨hhead, ?_, ?_⟩
  · rintro x hx rfl
    obtain ⟨a, b, e⟩ := split_infix _ _ _ hx
    exact h.dots ⟨a, b, by rw [e]; simp⟩
  · rintro x hx rfl
    rcases split_empty s hx with h1 | h1
    · exact hhead h1
    · exact h.slashes h1

/-! ## C48: comments -/

theorem afterClose_first (c t : Str) (h : ¬ ∃ a b, c ++ ['*'] = a ++ '*' :: '/' :: b) : afterClose (c ++ '*' :: '/' :: t) = some t := by
  induction c with
  | nil => rfl
  | cons x c ih =>
    have ih := ih (by
      rintro ⟨a, b, e⟩
      exact h ⟨x :: a, b, by rw [List.cons_append, e]; rfl⟩)
    rw [List.cons_append, afterClose]
    · exact ih
    · intro r hx hr
      subst hx
      cases c with
      | nil => cases hr
      | cons y c =>
        injection hr with hy _
        subst hy
        exact h ⟨[], c ++ ['*'], rfl⟩

theorem upTo_first (q : Char) (s t : Str) (h : q ∉ s) : upTo q (s ++ q :: t) = some (s, t) := by
  induction s with
  | nil => rw [List.nil_append, upTo, if_pos rfl]
  | cons c s ih =>
    simp only [List.mem_cons, not_or] at h
    rw [List.cons_append, upTo, if_neg (Ne.symm h.1), ih h.2]
    rfl

theorem removeGo_commented {t u : Str} (h : Commented t u) : ∀ n, t.length ≤ n → removeGo n t = u := by
  induction h with
  | nil => intro n _; cases n <;> rfl
  | @char c t u h1 h2 h3 h4 _ ih =>
    intro n hn
    cases n with
    | zero => cases hn
    | succ n =>
      rw [removeGo, if_neg (by simp [h1, h2]), if_neg h3, if_neg h4, ih n (by simpa using hn)]
  | @quoted q s t u hq hs _ ih =>
    intro n hn
    cases n with
    | zero => cases hn
    | succ n =>
      rw [removeGo, if_pos hq, upTo_first q s t hs]
      simp only
      rw [ih n (by simp only [List.length_cons, List.length_append] at hn; omega)]
  | @block c t u hc _ ih =>
    intro n hn
    cases n with
    | zero => cases hn
    | succ n =>
      rw [removeGo, if_neg (by decide), if_pos ⟨rfl, rfl⟩, List.tail_cons, afterClose_first c t hc]
      simp only
      exact ih n (by simp only [List.length_cons, List.length_append] at hn; omega)
  | @line c t u hc ht _ ih =>
    intro n hn
    cases n with
    | zero => cases hn
    | succ n =>
      have hd : ('-' :: (c ++ t)).dropWhile (fun d => d ≠ '\r' ∧ d ≠ '\n') = t := by
        rw [List.dropWhile_cons_of_pos (by decide)]
        clear hn ih
        induction c with
        | nil =>
          rw [List.nil_append]
          cases t with
          | nil => rfl
          | cons x t =>
            rcases ht with ht | ht
            · cases ht
            · injection ht with ht
              subst ht
              rw [List.dropWhile_cons_of_neg (by decide)]
        | cons x c ih =>
          rw [List.cons_append, List.dropWhile_cons_of_pos (by simpa using hc x (List.mem_cons_self ..))]
          exact ih (fun d hd => hc d (List.mem_cons_of_mem _ hd))
      rw [removeGo, if_neg (by decide), if_neg (by simp), if_pos ⟨rfl, rfl⟩, hd]
      simp only
      rw [if_pos]
      · exact ih n (by simp only [List.length_cons, List.length_append] at hn; omega)
      · rcases ht with ht | ht
        · left; cases t with
          | nil => rfl
          | cons x t => cases ht
        · exact Or.inr ht

/-- C48: comments are removed, and nothing else. -/
theorem C48_comments {t u : Str} (h : Commented t u) : removeComments t = u := removeGo_commented h _ (Nat.le_refl _)

/-- C48 is false of lines that end with a carriage return and a line feed: the comment is not removed. -/
theorem C48_crlf_fails (c t : Str) (hc : ∀ d ∈ c, d ≠ '\r' ∧ d ≠ '\n') :
    ∃ r, removeComments ('-' :: '-' :: (c ++ '\r' :: '\n' :: t)) = '-' :: r := by
  have hd : ('-' :: (c ++ '\r' :: '\n' :: t)).dropWhile (fun d => d ≠ '\r' ∧ d ≠ '\n') = '\r' :: '\n' :: t := by
    rw [List.dropWhile_cons_of_pos (by decide)]
    induction c with
    | nil => rw [List.nil_append, List.dropWhile_cons_of_neg (by decide)]
    | cons x c ih =>
      rw [List.cons_append, List.dropWhile_cons_of_pos (by simpa using hc x (List.mem_cons_self ..))]
      exact ih (fun d hd => hc d (List.mem_cons_of_mem _ hd))
  unfold removeComments
  rw [List.length_cons, removeGo, if_neg (by decide), if_neg (by simp), if_pos ⟨rfl, rfl⟩, hd]
  simp only
  rw [if_neg (by simp)]
  exact ⟨_, rfl⟩

/-! ## C48: clauses -/

theorem fresh_none : Fresh re none := by intro a h; cases h

theorem finish_of {p : Parsed} (hsel : p.select ≠ none) (hsrc : p.source ≠ none)
    (hv : ∀ d, p.source = some (.dataset d) → validateDataset ch d = .ok ()) : finish ch p = .ok p := by
  have : checkSource ch p.source = .ok () := by
    cases h : p.source with
    | none => exact absurd h hsrc
    | some s =>
      cases s with
      | dataset d => exact hv d h
      | subquery ps => rfl
  unfold finish
  rw [this]
  show (if p.source = none ∨ p.select = none then Except.error Err.sqlError else .ok p) = .ok p
  rw [if_neg (by simp [hsel, hsrc])]

/-- C48, where ORDER BY comes last or has a direction: the clauses of a statement, in any order, are what is read, with
any comments and white space. -/
theorem C48_parse_partial (hre : SaneRe re) (hl : Sane lex) (hch : SaneChars ch) {cs : List Clause} {raw text : Str}
    (h : Statement re lex cs text) (ho : OrderLast cs) (hraw : clean (removeComments raw) = text)
    (hsel : (cs.foldl Clause.apply {}).select ≠ none) (hsrc : (cs.foldl Clause.apply {}).source ≠ none)
    (hname : ∀ d, (cs.foldl Clause.apply {}).source = some (.dataset d) → GoodName ch d) :
    ∃ p, Parses re lex ch raw (.ok p) ∧ view p = cs.foldl Clause.apply {} := by
  obtain ⟨p, h1, h2⟩ := leads_statement hre hl h ho none {} fresh_none
  have h2 : view p = cs.foldl Clause.apply {} := h2
  refine ⟨p, ?_, h2⟩
  obtain ⟨n, hn⟩ := h1.ends
  refine ⟨n, ?_⟩
  unfold parse
  rw [hraw, parts_toks, hn]
  show some (finish ch p) = _
  rw [finish_of]
  · rw [← h2] at hsel; exact hsel
  · rw [← h2] at hsrc
    intro h
    apply hsrc
    unfold view
    simp only [h]
    rfl
  · intro d hd
    refine (C47_accepted_iff hch d).2 (hname d ?_)
    rw [← h2]
    unfold view
    simp only [hd]
    rfl

/-- C48: a statement without SELECT or FROM is rejected. -/
theorem C48_incomplete (hre : SaneRe re) (hl : Sane lex) (hch : SaneChars ch) {cs : List Clause} {raw text : Str}
    (h : Statement re lex cs text) (ho : OrderLast cs) (hraw : clean (removeComments raw) = text)
    (hmiss : (cs.foldl Clause.apply {}).select = none ∨ (cs.foldl Clause.apply {}).source = none)
    (hname : ∀ d, (cs.foldl Clause.apply {}).source = some (.dataset d) → GoodName ch d) :
    Parses re lex ch raw (.error .sqlError) := by
  obtain ⟨p, h1, h2⟩ := leads_statement hre hl h ho none {} fresh_none
  have h2 : view p = cs.foldl Clause.apply {} := h2
  obtain ⟨n, hn⟩ := h1.ends
  refine ⟨n, ?_⟩
  unfold parse
  rw [hraw, parts_toks, hn]
  show some (finish ch p) = _
  have hv : checkSource ch p.source = .ok () := by
    cases hs : p.source with
    | none => rfl
    | some s =>
      cases s with
      | subquery ps => rfl
      | dataset d =>
        refine (C47_accepted_iff hch d).2 (hname d ?_)
        rw [← h2]
        unfold view
        simp only [hs]
        rfl
  unfold finish
  rw [hv]
  show some (if p.source = none ∨ p.select = none then Except.error Err.sqlError else .ok p) = _
  rw [if_pos]
  rw [← h2] at hmiss
  rcases hmiss with h | h
  · exact Or.inr h
  · left
    cases hs : p.source with
    | none => rfl
    | some s =>
      unfold view at h
      simp only [hs] at h
      cases h

/-- C48: whatever is accepted has a SELECT and a FROM. -/
theorem C48_complete (raw : Str) (p : Parsed) (h : Parses re lex ch raw (.ok p)) : (view p).select ≠ none ∧ (view p).source ≠ none := by
  obtain ⟨n, h⟩ := h
  obtain ⟨_, h2⟩ := parse_ok h
  obtain ⟨_, h3, h4, _⟩ := finish_ok h2
  refine ⟨h4, ?_⟩
  intro h
  apply h3
  cases hs : p.source with
  | none => rfl
  | some s =>
    unfold view at h
    simp only [hs] at h
    cases h

/-! ## C48: ending -/

theorem stuck_of_body {t : Str} (h1 : isBody lex t = true) (h2 : strip t ≠ []) : Stuck lex t := by
  refine ⟨h2, ?_⟩
  intro hm
  have : ∀ k ∈ ["SELECT", "FROM", "WHERE", "GROUP BY", "HAVING", "ORDER BY", "LIMIT"].map String.toList, k ∈ sqlParts := by decide +kernel
  exact not_key_of_body h1 _ (this _ hm) rfl

/-- After the keyword of a clause comes something that begins no clause. -/
theorem clause_stuck (hre : SaneRe re) (hl : Sane lex) {c : Clause} {t tail : Str} (h : c.Written re lex t) (hn : Next re lex tail) :
    ∃ k s, t = k ++ ' ' :: s ∧ capitals k ∈ sqlParts ∧ capitals k ≠ "ASC".toList ∧ capitals k ≠ "DESC".toList ∧
      ∃ x r, toks re (some ' ') (s ++ tail) = x :: r ∧ Stuck lex x := by
  have body : ∀ b, Body re lex b → ∀ tail, Next re lex tail → ∃ x r, toks re (some ' ') (b ++ tail) = x :: r ∧ Stuck lex x := by
    intro b hb tail hn
    obtain ⟨x, bp, h1, _, h3, h4⟩ := body_first hre hl (some ' ') hb hn.tail
    exact ⟨x, _, h1, stuck_of_body (h3 x (List.mem_cons_self ..)) (body_piece h4)⟩
  cases h with
  | select h hb => exact ⟨_, _, rfl, by rw [h]; decide +kernel, by rw [h]; decide, by rw [h]; decide, body _ hb _ hn⟩
  | distinct h hd hb =>
    refine ⟨_, _, rfl, by rw [h]; decide +kernel, by rw [h]; decide, by rw [h]; decide, ?_⟩
    have hdm := hd ▸ (by decide +kernel : "DISTINCT".toList ∈ sqlParts)
    refine ⟨_, _, after_key hre hdm (fresh_space hre), key_strip hre hdm, ?_⟩
    rw [upper_key hl hdm, hd]
    decide +kernel
  | dataset h hb => exact ⟨_, _, rfl, by rw [h]; decide +kernel, by rw [h]; decide, by rw [h]; decide, body _ hb _ hn⟩
  | @subquery k s h =>
    refine ⟨_, _, rfl, by rw [h]; decide +kernel, by rw [h]; decide, by rw [h]; decide, ['('], ?_⟩
    refine ⟨F (scan re keywords (some '(') [] ((s ++ [')']) ++ tail)), ?_, ?_⟩
    · unfold toks
      rw [List.cons_append, scan_single hre _ _ _ _ (Or.inl rfl), F_cons_nil, F_cons _ _ (by simp)]
    · exact stuck_of_body (isBody_single hl (Or.inl rfl)) (by decide)
  | where_ h hb => exact ⟨_, _, rfl, by rw [h]; decide +kernel, by rw [h]; decide, by rw [h]; decide, body _ hb _ hn⟩
  | groupBy h hb => exact ⟨_, _, rfl, by rw [h]; decide +kernel, by rw [h]; decide, by rw [h]; decide, body _ hb _ hn⟩
  | having h hb => exact ⟨_, _, rfl, by rw [h]; decide +kernel, by rw [h]; decide, by rw [h]; decide, body _ hb _ hn⟩
  | orderBy h hb => exact ⟨_, _, rfl, by rw [h]; decide +kernel, by rw [h]; decide, by rw [h]; decide, body _ hb _ hn⟩
  | descending h hd hb =>
    refine ⟨_, _, rfl, by rw [h]; decide +kernel, by rw [h]; decide, by rw [h]; decide, ?_⟩
    have hdm := hd ▸ (by decide +kernel : "DESC".toList ∈ sqlParts)
    rw [List.append_assoc, List.cons_append]
    exact body _ hb _ (next_key hre hl hdm hn.shape)
  | ascending h hd hb =>
    refine ⟨_, _, rfl, by rw [h]; decide +kernel, by rw [h]; decide, by rw [h]; decide, ?_⟩
    have hdm := hd ▸ (by decide +kernel : "ASC".toList ∈ sqlParts)
    rw [List.append_assoc, List.cons_append]
    exact body _ hb _ (next_key hre hl hdm hn.shape)
  | limit h => exact ⟨_, _, rfl, by rw [h]; decide +kernel, by rw [h]; decide, by rw [h]; decide, body _ (intStr_body hre hl _) _ hn⟩

/-- After a statement that begins with ORDER BY without a direction, the loop is stuck. -/
theorem statement_stuck (hre : SaneRe re) (hl : Sane lex) {cs : List Clause} {t : Str} (h : Statement re lex cs t) (ho : ¬ OrderLast cs) :
    ∀ (prev : Option Char) (p : Parsed), Fresh re prev →
      ∃ p' x ts, Leads lex p (toks re prev t) p' (x :: ts) ∧ Stuck lex x := by
  induction h with
  | one h => exact absurd trivial ho
  | @more c t cs u h hs ih =>
    intro prev p hp
    by_cases hc : ∀ b, c ≠ .orderBy b none
    · obtain ⟨p1, h1, _⟩ := leads_clause hre hl p h hp (statement_next hre hl hs) (Or.inr hc)
      obtain ⟨p2, x, ts, h2, h3⟩ := ih (by
        intro hol
        apply ho
        cases cs with
        | nil => cases hs
        | cons d cs => exact ⟨hc, hol⟩) (some ' ') p1 (fresh_space hre)
      exact ⟨p2, x, ts, h1.trans h2, h3⟩
    · simp only [not_forall, not_not] at hc
      obtain ⟨b, rfl⟩ := hc
      cases h with
      | orderBy hk hb =>
        obtain ⟨k', s, rfl, hkm, hna, hnd, x, r, hx, hst⟩ : ∃ k s, u = k ++ ' ' :: s ∧ capitals k ∈ sqlParts ∧ capitals k ≠ "ASC".toList ∧
            capitals k ≠ "DESC".toList ∧ ∃ x r, toks re (some ' ') s = x :: r ∧ Stuck lex x := by
          cases hs with
          | one h =>
            obtain ⟨k, s, e, h1, h2, h3, h4⟩ := clause_stuck hre hl (tail := []) h (Or.inl rfl)
            exact ⟨k, s, e, h1, h2, h3, by simpa using h4⟩
          | more h hs' =>
            obtain ⟨k, s, e, h1, h2, h3, h4⟩ := clause_stuck hre hl h (statement_next hre hl hs')
            exact ⟨k, _, by rw [e, List.append_assoc, List.cons_append], h1, h2, h3, h4⟩
        have h1 := leads_order_next hre hl p hk hb hp hkm ⟨hna, hnd⟩ (t := s)
        rw [hx] at h1
        exact ⟨_, x, r, h1.trans (Leads.blank blank_space), hst⟩

/-- C48 is false where ORDER BY without a direction is followed by another clause (LIMIT, for one): the parser never ends.
It ends for every other statement. -/
theorem C48_order_fails (hre : SaneRe re) (hl : Sane lex) {cs : List Clause} {raw text : Str}
    (h : Statement re lex cs text) (hraw : clean (removeComments raw) = text) : Hangs re lex ch raw ↔ ¬ OrderLast cs := by
  constructor
  · intro hh ho
    obtain ⟨p, h1, _⟩ := leads_statement hre hl h ho none {} fresh_none
    obtain ⟨n, hn⟩ := h1.ends
    have := hh n
    unfold parse at this
    rw [hraw, parts_toks, hn] at this
    cases this
  · intro ho n
    obtain ⟨p, x, ts, h1, h2⟩ := statement_stuck hre hl h ho none {} fresh_none
    unfold parse
    rw [hraw, parts_toks, h1.stuck h2 n]
    rfl

/-- C48 is false of texts that begin with anything but a clause: the parser never ends. -/
theorem C48_leading_fails (hre : SaneRe re) (hl : Sane lex) {b raw : Str} (hb : Body re lex b)
    (h : clean (removeComments raw) = b ∨ ∃ cs t, Statement re lex cs t ∧ clean (removeComments raw) = b ++ ' ' :: t) :
    Hangs re lex ch raw := by
  obtain ⟨tail, hn, hraw⟩ : ∃ tail, Next re lex tail ∧ clean (removeComments raw) = b ++ tail := by
    rcases h with h | ⟨cs, t, h1, h2⟩
    · exact ⟨[], Or.inl rfl, by rw [h, List.append_nil]⟩
    · exact ⟨_, statement_next hre hl h1, h2⟩
  intro n
  obtain ⟨t, bp, h1, _, h3, h4⟩ := body_first hre hl none hb hn.tail
  unfold parse
  rw [hraw, parts_toks, h1, List.cons_append, run_stuck n {} t _ (stuck_of_body (h3 t (List.mem_cons_self ..)) (body_piece h4))]
  rfl

theorem skipEmpty_length (ts : List Str) : (skipEmpty lex ts).length ≤ ts.length := (List.dropWhile_sublist _).length_le

theorem collector_length (ts : List Str) : (collector lex ts).2.length ≤ ts.length := (List.dropWhile_sublist _).length_le

theorem collectInside_length : ∀ (n : Nat) (ts : List Str) (r : List Str × List Str), collectInside lex n ts = some r → r.2.length ≤ ts.length
  | _, [], _, h => by cases h
  | n, t :: ts, r, h => by
    rw [collectInside] at h
    split at h
    · split at h
      · injection h with h; rw [← h]; simp
      · obtain ⟨r', h1, rfl⟩ := Option.map_eq_some_iff.1 h
        have := collectInside_length _ _ _ h1
        simp only [List.length_cons]; omega
    · split at h
      · obtain ⟨r', h1, rfl⟩ := Option.map_eq_some_iff.1 h
        have := collectInside_length _ _ _ h1
        simp only [List.length_cons]; omega
      · obtain ⟨r', h1, rfl⟩ := Option.map_eq_some_iff.1 h
        have := collectInside_length _ _ _ h1
        simp only [List.length_cons]; omega

/-- A turn of the loop either uses a part or changes nothing. -/
theorem step_shrinks (p : Parsed) (t : Str) (ts : List Str) (st : Parsed × List Str) (h : step lex p t ts = .ok st) :
    st.2.length ≤ ts.length ∨ st = (p, t :: ts) := by
  unfold step at h
  split at h
  · injection h with h; rw [← h]; exact Or.inl (Nat.le_refl _)
  split at h
  · left
    unfold stepSelect at h
    have h0 := skipEmpty_length (lex := lex) ts
    cases hs : skipEmpty lex ts with
    | nil => rw [hs] at h; cases h
    | cons x xs =>
      rw [hs] at h h0
      simp only [List.length_cons] at h0
      simp only at h
      split at h
      · injection h with h
        rw [← h]
        have h1 := skipEmpty_length (lex := lex) xs
        have h2 := collector_length (lex := lex) (skipEmpty lex xs)
        simp only; omega
      · injection h with h
        rw [← h]
        have h2 := collector_length (lex := lex) (x :: xs)
        simp only [List.length_cons] at h2 ⊢; omega
  split at h
  · left
    unfold stepFrom at h
    have h0 := skipEmpty_length (lex := lex) ts
    cases hs : skipEmpty lex ts with
    | nil => rw [hs] at h; cases h
    | cons x xs =>
      rw [hs] at h h0
      simp only [List.length_cons] at h0
      simp only at h
      split at h
      · cases hc : collectInside lex 1 xs with
        | none => rw [hc] at h; cases h
        | some r =>
          rw [hc] at h
          injection h with h
          rw [← h]
          have h2 := collectInside_length _ _ _ hc
          simp only; omega
      · injection h with h
        rw [← h]
        have h2 := collector_length (lex := lex) (x :: xs)
        simp only [List.length_cons] at h2 ⊢; omega
  split at h
  · injection h with h; rw [← h]; exact Or.inl (collector_length ts)
  split at h
  · injection h with h; rw [← h]; exact Or.inl (collector_length ts)
  split at h
  · injection h with h; rw [← h]; exact Or.inl (collector_length ts)
  split at h
  · injection h with h
    left
    rw [← h]
    unfold stepOrder
    have h2 := collector_length (lex := lex) ts
    cases hc : (collector lex ts).2 with
    | nil => simp [hc]
    | cons x xs =>
      rw [hc, List.length_cons] at h2
      simp only [hc]
      split <;> simp only <;> omega
  split at h
  · cases hp : pyInt (collector lex ts).1 with
    | error e => rw [hp] at h; cases h
    | ok i => rw [hp] at h; injection h with h; rw [← h]; exact Or.inl (collector_length ts)
  · injection h with h; exact Or.inr h.symm

theorem run_none : ∀ (n : Nat) (p : Parsed) (ts : List Str), ts.length ≤ n → run lex n p ts = none → ∀ m, run lex m p ts = none
  | n, p, [], _, h => by cases n <;> cases h
  | 0, p, t :: ts, hn, _ => by cases hn
  | n + 1, p, t :: ts, hn, h => by
    rw [run] at h
    cases hs : step lex p t ts with
    | error e => rw [hs] at h; cases h
    | ok st =>
      rw [hs] at h
      rcases step_shrinks p t ts st hs with h1 | rfl
      · intro m
        cases m with
        | zero => rfl
        | succ m =>
          rw [run, hs]
          exact run_none n st.1 st.2 (by rw [List.length_cons] at hn; omega) h m
      · intro m
        induction m with
        | zero => rfl
        | succ m ih => rw [run, hs]; exact ih

/-- C48: a statement that has not been parsed after as many turns as it has parts never will be; so one can tell which
statements do. -/
theorem C48_ends (raw : Str) : Hangs re lex ch raw ↔ parse re lex ch (parts re (clean (removeComments raw))).length raw = none := by
  constructor
  · intro h; exact h _
  · intro h m
    unfold parse at h ⊢
    rw [Option.map_eq_none_iff] at h ⊢
    exact run_none _ _ _ (Nat.le_refl _) h m

/-! ## C47, C48: what goes wrong -/

/-- FROM without a name, before another clause. -/
theorem leads_from_empty (hre : SaneRe re) (hl : Sane lex) {prev : Option Char} {k u : Str} {cs : List Clause} (p : Parsed)
    (hk : capitals k = "FROM".toList) (hp : Fresh re prev) (h : Statement re lex cs u) :
    Leads lex p (toks re prev (k ++ ' ' :: u)) { p with source := some (.dataset []) } (toks re (some ' ') u) := by
  have hkm : capitals k ∈ sqlParts := by rw [hk]; decide +kernel
  obtain ⟨k', s, rfl, hk', _⟩ := statement_head h
  have e1 : toks re prev (k ++ ' ' :: (k' ++ ' ' :: s)) = k :: [' '] :: toks re (some ' ') (k' ++ ' ' :: s) := by
    have := after_key hre (s := k' ++ ' ' :: s) (tail := []) hkm hp
    rwa [List.append_nil, List.append_nil] at this
  have e2 := key_toks hre (tail := ' ' :: s) hk' (fresh_space hre) (Or.inr ⟨_, rfl⟩)
  rw [e1, e2]
  refine Leads.one ?_
  unfold step
  have hup := upper_key hl hkm
  rw [if_neg (key_strip hre hkm), hup, hk, if_neg (by decide), if_pos rfl]
  unfold stepFrom
  rw [skip_space (key_strip hre hk')]
  have hnb := key_not_body hl hk'
  have hleft : label lex k' ≠ .left := by
    refine (label_plain ?_).1
    intro c hc
    have hm : c.toUpper ∈ capitals k' := List.mem_map_of_mem hc
    have := (by decide +kernel : ∀ s ∈ sqlParts, '(' ∉ s ∧ ')' ∉ s ∧ '[' ∉ s ∧ ']' ∉ s) _ hk'
    refine ⟨?_, ?_, ?_, ?_⟩ <;> rintro rfl
    · exact this.1 hm
    · exact this.2.1 hm
    · exact this.2.2.1 hm
    · exact this.2.2.2 hm
  simp only
  rw [if_neg hleft]
  unfold collector
  rw [List.takeWhile_cons_of_neg (by simp [hnb]), List.dropWhile_cons_of_neg (by simp [hnb])]
  rfl

/-- C47: without a name the statement is refused too, though not as bad SQL: indexing the name fails. -/
theorem C47_empty (hre : SaneRe re) (hl : Sane lex) {c : Clause} {cs : List Clause} {t k u raw : Str} (hc : c.Written re lex t)
    (hco : ∀ b, c ≠ .orderBy b none) (hk : capitals k = "FROM".toList) (h : Statement re lex cs u) (ho : OrderLast cs)
    (hs : ∀ n, .dataset n ∉ cs ∧ .subquery n ∉ cs) (hraw : clean (removeComments raw) = t ++ ' ' :: (k ++ ' ' :: u)) :
    Parses re lex ch raw (.error .indexError) := by
  have hkm : capitals k ∈ sqlParts := by rw [hk]; decide +kernel
  obtain ⟨p1, h1, _⟩ := leads_clause hre hl {} hc fresh_none (next_key hre hl (t := ' ' :: u) hkm (Or.inr ⟨u, rfl⟩)) (Or.inr hco)
  have h2 := leads_from_empty hre hl p1 hk (fresh_space hre) h
  obtain ⟨p3, h3, h4⟩ := leads_statement hre hl h ho (some ' ') { p1 with source := some (.dataset []) } (fresh_space hre)
  have hsrc : ∀ (cs : List Clause) (q : Query), (∀ n, .dataset n ∉ cs ∧ .subquery n ∉ cs) → (cs.foldl Clause.apply q).source = q.source := by
    intro cs
    induction cs with
    | nil => intro q _; rfl
    | cons d cs ih =>
      intro q h
      rw [List.foldl_cons, ih _ (fun n => ⟨fun hm => (h n).1 (List.mem_cons_of_mem _ hm), fun hm => (h n).2 (List.mem_cons_of_mem _ hm)⟩)]
      cases d with
      | dataset n => exact absurd (List.mem_cons_self ..) (h n).1
      | subquery n => exact absurd (List.mem_cons_self ..) (h n).2
      | orderBy b d => cases d <;> rfl
      | _ => rfl
  have h5 : (view p3).source = some (.dataset []) := by rw [h4, hsrc cs _ hs]; rfl
  have h6 : p3.source = some (.dataset []) := by
    unfold view at h5
    cases hp : p3.source with
    | none => simp [hp] at h5
    | some s =>
      cases s with
      | subquery ps => simp [hp] at h5
      | dataset d =>
        simp only [hp, Option.map_some, Option.some.injEq, Place.dataset.injEq] at h5
        rw [h5]
  obtain ⟨n, hn⟩ := ((h1.trans h2).trans h3).ends
  refine ⟨n, ?_⟩
  unfold parse
  rw [hraw, parts_toks, hn]
  show some (finish ch p3) = _
  unfold finish
  rw [h6]
  rfl

/-- C48 is false of texts with a word of SQL in quotes: it begins a clause of its own, and the condition is what follows
it.  There is nothing here about quotes: `b1` may open them and `b2` close them. -/
theorem C48_quoted_fails (hre : SaneRe re) (hl : Sane lex) (hch : SaneChars ch) {a d b1 w b2 raw : Str} (ha : Body re lex a)
    (hd : Body re lex d) (hg : GoodName ch d) (hdot : '.' ∉ d) (hp : d.head? ≠ some '(' ∧ d.head? ≠ some '[')
    (hb1 : Body re lex b1) (hw : capitals w = "WHERE".toList) (hb2 : Body re lex b2)
    (hraw : clean (removeComments raw) =
      "SELECT".toList ++ ' ' :: a ++ ' ' :: ("FROM".toList ++ ' ' :: d ++ ' ' :: ("WHERE".toList ++ ' ' :: b1 ++ ' ' :: (w ++ ' ' :: b2)))) :
    ∃ p, Parses re lex ch raw (.ok p) ∧ (view p).whereExpr = some b2 := by
  have hst : Statement re lex [.select false a, .dataset d, .where_ b1, .where_ b2] (clean (removeComments raw)) := by
    rw [hraw]
    exact .more (.select (by decide) ha) (.more (.dataset (by decide) hd hp.1 hp.2) (.more (.where_ (by decide) hb1) (.one (.where_ hw hb2))))
  have hmap : d.map (fun c => if c = '.' then '/' else c) = d := by
    conv_rhs => rw [← List.map_id d]
    refine List.map_congr_left fun c hc => ?_
    rw [if_neg (by rintro rfl; exact hdot hc)]
    rfl
  obtain ⟨p, h1, h2⟩ := C48_parse_partial hre hl hch hst
    ⟨(by intro b h; cases h), (by intro b h; cases h), (by intro b h; cases h), trivial⟩ rfl (by simp [Clause.apply]) (by simp [Clause.apply])
    (by
      intro n h
      simp only [List.foldl_cons, List.foldl_nil, Clause.apply, hmap, Option.some.injEq, Place.dataset.injEq] at h
      rw [← h]; exact hg)
  exact ⟨p, h1, by rw [h2]; rfl⟩

/-! ## Examples -/

def asciiChars : Chars := ⟨Char.isAlpha, Char.isAlphanum⟩

theorem asciiChars_sane : SaneChars asciiChars := ⟨fun c h => by simp [asciiChars, Char.isAlphanum] at h ⊢; exact Or.inl h, by decide⟩

def goodNameB (ch : Chars) (s : Str) : Bool := (validateDataset ch s).toOption.isSome

theorem good_of (s : Str) (h : goodNameB asciiChars s = true) : GoodName asciiChars s := by
  refine (C47_accepted_iff asciiChars_sane s).1 ?_
  unfold goodNameB at h
  cases hv : validateDataset asciiChars s with
  | ok u => rfl
  | error e => rw [hv] at h; cases h

def keyLikeB (re : Re) (lex : Lex) (s : Str) : Bool := sqlParts.any fun k => lex.upper s == k || reads re k s

def noKeyB (re : Re) (lex : Lex) (s : Str) : Bool :=
  (List.range (s.length + 1)).all fun i => (List.range (s.length + 1)).all fun j =>
    !keyLikeB re lex ((s.drop i).take j) || (s.take i).getLast?.any re.isWord || ((s.drop i).drop j).head?.any re.isWord

theorem noKey_of (s : Str) (h : noKeyB re lex s = true) : NoKey re lex s := by
  rintro a k b rfl ⟨q, hq, hk⟩
  unfold noKeyB at h
  have h1 := List.all_eq_true.1 (List.all_eq_true.1 h a.length (by simp; omega)) k.length (by simp; omega)
  rw [List.append_assoc, List.drop_left, List.take_left, List.take_left, List.drop_left] at h1
  have : keyLikeB re lex k = true := by
    unfold keyLikeB
    refine List.any_eq_true.2 ⟨q, hq, ?_⟩
    rcases hk with hk | hk
    · simp [hk]
    · simp [hk]
  rw [this] at h1
  simp only [Bool.not_true, Bool.false_or, Bool.or_eq_true] at h1
  rcases h1 with h1 | h1
  · left
    cases ha : a.getLast? with
    | none => rw [ha] at h1; cases h1
    | some c => rw [ha] at h1; exact ⟨c, rfl, h1⟩
  · right
    cases hb : b.head? with
    | none => rw [hb] at h1; cases h1
    | some c => rw [hb] at h1; exact ⟨c, rfl, h1⟩

open Mabel.Expression (sampleLex sampleLex_sane)

theorem body_of (s : Str) (h1 : s.head?.any (fun c => !isSpace c) = true) (h2 : s.getLast?.any (fun c => !isSpace c) = true)
    (h3 : noKeyB asciiRe sampleLex s = true) : Body asciiRe sampleLex s := by
  refine ⟨?_, ?_, noKey_of s h3⟩
  · cases s with
    | nil => cases h1
    | cons c s => exact ⟨c, s, rfl, by simpa using h1⟩
  · cases hs : s.getLast? with
    | none => rw [hs] at h2; cases h2
    | some c => rw [hs] at h2; exact ⟨c, rfl, by simpa using h2⟩

/-- C47: names that are accepted, and names that are not. -/
example : GoodName asciiChars "data/2021-01/some_set.v2".toList := good_of _ (by decide +kernel)
example : ¬ GoodName asciiChars "data/../secret".toList := fun h => h.dots ⟨"data/".toList, "/secret".toList, rfl⟩
example : validateDataset asciiChars "data/../secret".toList = .error .sqlError := by rfl
example : validateDataset asciiChars "/etc".toList = .error .sqlError := by rfl
example : validateDataset asciiChars "a*".toList = .error .sqlError := by rfl
example : split '/' "data/2021/".toList = ["data".toList, "2021".toList, []] := by rfl

def sampleRaw : Str := "select DISTINCT a, COUNT(b) -- the columns\n  FROM some.data /* -- */\twhere a = '--' group by a\nORDER BY a DESC LIMIT 5".toList

def sampleClauses : List Clause :=
  [.select true "a, COUNT(b)".toList, .dataset "some.data".toList, .where_ "a = '--'".toList, .groupBy "a".toList,
    .orderBy "a".toList (some true), .limit 5]

theorem sample_statement : Statement asciiRe sampleLex sampleClauses (clean (removeComments sampleRaw)) := by
  have e : clean (removeComments sampleRaw) = "select".toList ++ ' ' :: ("DISTINCT".toList ++ ' ' :: "a, COUNT(b)".toList) ++ ' ' ::
    ("FROM".toList ++ ' ' :: "some.data".toList ++ ' ' :: ("where".toList ++ ' ' :: "a = '--'".toList ++ ' ' ::
    ("group by".toList ++ ' ' :: "a".toList ++ ' ' :: ("ORDER BY".toList ++ ' ' :: ("a".toList ++ ' ' :: "DESC".toList) ++ ' ' ::
    ("LIMIT".toList ++ ' ' :: intStr 5))))) := by decide +kernel
  rw [e]
  exact .more (.distinct (by decide) (by decide) (body_of _ (by decide) (by decide) (by decide +kernel)))
    (.more (.dataset (by decide) (body_of _ (by decide) (by decide) (by decide +kernel)) (by decide) (by decide))
    (.more (.where_ (by decide) (body_of _ (by decide) (by decide) (by decide +kernel)))
    (.more (.groupBy (by decide) (body_of _ (by decide) (by decide) (by decide +kernel)))
    (.more (.descending (by decide) (by decide) (body_of _ (by decide) (by decide) (by decide +kernel)))
    (.one (.limit (by decide)))))))

theorem sample_order : OrderLast sampleClauses :=
  ⟨(by intro b h; cases h), (by intro b h; cases h), (by intro b h; cases h), (by intro b h; cases h), (by intro b h; cases h), trivial⟩

/-- C48: comments, DISTINCT, white space, upper and lower case. -/
example : ∃ p, Parses asciiRe sampleLex asciiChars sampleRaw (.ok p) ∧ view p =
    { select := some "a, COUNT(b)".toList, distinct := true, source := some (.dataset "some/data".toList), whereExpr := some "a = '--'".toList,
      groupBy := some "a".toList, orderBy := some "a".toList, descending := true, limit := some 5 } := by
  obtain ⟨p, h1, h2⟩ := C48_parse_partial asciiRe_sane sampleLex_sane asciiChars_sane sample_statement sample_order rfl
    (by simp [sampleClauses, Clause.apply]) (by simp [sampleClauses, Clause.apply])
    (by
      intro d h
      simp only [sampleClauses, List.foldl_cons, List.foldl_nil, Clause.apply, Option.some.injEq, Place.dataset.injEq] at h
      rw [← h]
      exact good_of _ (by decide +kernel))
  exact ⟨p, h1, by rw [h2]; decide +kernel⟩

/-- C47: what is read from that statement is a good name. -/
example (p : Parsed) (h : Parses asciiRe sampleLex asciiChars sampleRaw (.ok p)) (d : Str) (hd : (view p).source = some (.dataset d)) :
    GoodName asciiChars d := (C47_parsed asciiChars_sane _ _ _ h hd).1

theorem sample_subquery : Statement asciiRe sampleLex [.select false "*".toList, .subquery "SELECT a FROM b WHERE (c) = 1".toList, .limit (-1)]
    (clean (removeComments "SELECT * FROM (SELECT a FROM b WHERE (c) = 1) LIMIT -1".toList)) := by
  have e : clean (removeComments "SELECT * FROM (SELECT a FROM b WHERE (c) = 1) LIMIT -1".toList) =
    "SELECT".toList ++ ' ' :: "*".toList ++ ' ' :: ("FROM".toList ++ ' ' :: '(' :: ("SELECT a FROM b WHERE (c) = 1".toList ++ [')']) ++ ' ' ::
    ("LIMIT".toList ++ ' ' :: intStr (-1))) := by decide +kernel
  rw [e]
  exact .more (.select (by decide) (body_of _ (by decide) (by decide) (by decide +kernel)))
    (.more (.subquery (by decide) (by decide +kernel) (by decide) (by decide)) (.one (.limit (by decide))))

/-- C48: a subquery. -/
example : ∃ p, Parses asciiRe sampleLex asciiChars "SELECT * FROM (SELECT a FROM b WHERE (c) = 1) LIMIT -1".toList (.ok p) ∧ view p =
    { select := some "*".toList, source := some (.statement "SELECT a FROM b WHERE (c) = 1".toList), limit := some (-1) } := by
  obtain ⟨p, h1, h2⟩ := C48_parse_partial asciiRe_sane sampleLex_sane asciiChars_sane sample_subquery
    ⟨(by intro b h; cases h), (by intro b h; cases h), trivial⟩ rfl (by simp [Clause.apply]) (by simp [Clause.apply])
    (by intro d h; simp [Clause.apply] at h)
  exact ⟨p, h1, by rw [h2]; rfl⟩

theorem sample_limit : Statement asciiRe sampleLex [.select false "a".toList, .dataset "b".toList, .orderBy "a".toList none, .limit 5]
    (clean (removeComments "SELECT a FROM b ORDER BY a LIMIT 5".toList)) := by
  have e : clean (removeComments "SELECT a FROM b ORDER BY a LIMIT 5".toList) =
    "SELECT".toList ++ ' ' :: "a".toList ++ ' ' :: ("FROM".toList ++ ' ' :: "b".toList ++ ' ' :: ("ORDER BY".toList ++ ' ' :: "a".toList ++ ' ' ::
    ("LIMIT".toList ++ ' ' :: intStr 5))) := by decide +kernel
  rw [e]
  exact .more (.select (by decide) (body_of _ (by decide) (by decide) (by decide +kernel)))
    (.more (.dataset (by decide) (body_of _ (by decide) (by decide) (by decide +kernel)) (by decide) (by decide))
    (.more (.orderBy (by decide) (body_of _ (by decide) (by decide) (by decide +kernel))) (.one (.limit (by decide)))))

/-- C48: `ORDER BY a LIMIT 5` never ends. -/
example : Hangs asciiRe sampleLex asciiChars "SELECT a FROM b ORDER BY a LIMIT 5".toList :=
  (C48_order_fails asciiRe_sane sampleLex_sane sample_limit rfl).2 (fun h => h.2.2.1 _ rfl)

/-- C48: neither does a statement of another kind. -/
example : Hangs asciiRe sampleLex asciiChars "EXPLAIN SELECT a FROM b ORDER BY a LIMIT 5".toList :=
  C48_leading_fails asciiRe_sane sampleLex_sane (b := "EXPLAIN".toList) (body_of _ (by decide) (by decide) (by decide +kernel))
    (Or.inr ⟨_, _, sample_limit, by decide +kernel⟩)

/-- C48: nothing but SELECT. -/
example : Parses asciiRe sampleLex asciiChars "SELECT a".toList (.error .sqlError) := by
  have e : Statement asciiRe sampleLex [.select false "a".toList] (clean (removeComments "SELECT a".toList)) := by
    rw [show clean (removeComments "SELECT a".toList) = "SELECT".toList ++ ' ' :: "a".toList by decide +kernel]
    exact .one (.select (by decide) (body_of _ (by decide) (by decide) (by decide +kernel)))
  exact C48_incomplete asciiRe_sane sampleLex_sane asciiChars_sane e trivial rfl (Or.inr rfl) (by intro d h; cases h)

/-- C47: no name. -/
example : Parses asciiRe sampleLex asciiChars "SELECT a FROM WHERE a = 1".toList (.error .indexError) :=
  C47_empty asciiRe_sane sampleLex_sane (c := .select false "a".toList) (t := "SELECT".toList ++ ' ' :: "a".toList)
    (k := "FROM".toList) (u := "WHERE".toList ++ ' ' :: "a = 1".toList) (cs := [.where_ "a = 1".toList])
    (.select (by decide) (body_of _ (by decide) (by decide) (by decide +kernel))) (by intro b h; cases h) (by decide)
    (.one (.where_ (by decide) (body_of _ (by decide) (by decide) (by decide +kernel)))) trivial
    (by intro n; constructor <;> intro h <;> simp at h) (by decide +kernel)

/-- C48: a word of SQL in quotes. -/
example : ∃ p, Parses asciiRe sampleLex asciiChars "SELECT a FROM b WHERE a = 'who where when'".toList (.ok p) ∧ (view p).whereExpr = some "when'".toList :=
  C48_quoted_fails asciiRe_sane sampleLex_sane asciiChars_sane (a := "a".toList) (d := "b".toList) (b1 := "a = 'who".toList) (w := "where".toList)
    (body_of _ (by decide) (by decide) (by decide +kernel)) (body_of _ (by decide) (by decide) (by decide +kernel)) (good_of _ (by decide +kernel))
    (by decide) (by decide) (body_of _ (by decide) (by decide) (by decide +kernel)) (by decide) (body_of _ (by decide) (by decide) (by decide +kernel))
    (by decide +kernel)

/-- C48: the comments of the statement above, but for those in quotes. -/
example : Commented "a -- x\n= '--' /* y */+ 1".toList "a \n= '--' + 1".toList := by
  refine .char (by decide) (by decide) (by decide) (by decide) (.char (by decide) (by decide) (by decide) (by decide) ?_)
  refine .line (c := " x".toList) (by decide) (Or.inr rfl) ?_
  refine .char (by decide) (by decide) (by decide) (by decide) (.char (by decide) (by decide) (by decide) (by decide)
    (.char (by decide) (by decide) (by decide) (by decide) ?_))
  refine .quoted (s := "--".toList) (Or.inr rfl) (by decide) ?_
  refine .char (by decide) (by decide) (by decide) (by decide) ?_
  refine .block (c := " y ".toList) ?_ ?_
  · rintro ⟨a, b, e⟩
    have hm : '/' ∈ " y ".toList ++ ['*'] := by rw [e]; simp
    exact absurd hm (by decide)
  · exact .char (by decide) (by decide) (by decide) (by decide) (.char (by decide) (by decide) (by decide) (by decide)
      (.char (by decide) (by decide) (by decide) (by decide) .nil))

end Mabel.Sql
