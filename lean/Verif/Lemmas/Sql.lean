import Verif.Lemmas.SqlText
import Verif.Lemmas.Listing

/-! # Facts about reading SQL statements -/

namespace Mabel.Sql
open Mabel.Py Mabel.Dates Mabel.Tokens Mabel.Sql.Spec
open Mabel.Tokenizer hiding Blank keywords
open Mabel.Tokenizer.Spec (SaneRe capitals isWordChar)
open Mabel.Expression (of_ascii alphanum_ascii upper_ascii label_paren label_punctuation)
open Mabel.Expression.Spec (Sane isParen)
open Mabel.Evaluator (space_facts space_nonword)

variable {re : Re} {lex : Lex} {ch : Chars}

/-! ## Characters one by one -/

theorem replaceGo_char (a : Char) (new : Str) (s : Str) : replaceGo [a] new 0 s = s.flatMap (fun c => if c = a then new else [c]) := by
  induction s with
  | nil => rfl
  | cons c s ih =>
    rw [replaceGo, List.flatMap_cons]
    by_cases h : c = a
    · subst h
      rw [if_pos (by simp [List.isPrefixOf]), if_pos rfl]
      show new ++ replaceGo [c] new 0 s = _
      rw [ih]
    · rw [if_neg (by simp [List.isPrefixOf, Ne.symm h]), if_neg h, ih]
      rfl

theorem replace_char (a b : Char) (s : Str) : replace [a] [b] s = s.map (fun c => if c = a then b else c) := by
  unfold replace
  rw [replaceGo_char]
  induction s with
  | nil => rfl
  | cons c s ih =>
    rw [List.flatMap_cons, ih, List.map_cons]
    by_cases h : c = a <;> simp [h]

theorem replace_drop (a : Char) (s : Str) : replace [a] [] s = s.filter (· ≠ a) := by
  unfold replace
  rw [replaceGo_char]
  induction s with
  | nil => rfl
  | cons c s ih =>
    rw [List.flatMap_cons, ih]
    by_cases h : c = a
    · subst h
      rw [if_pos rfl, List.filter_cons_of_neg (by simp)]
      rfl
    · rw [if_neg h, List.filter_cons_of_pos (by simpa using h)]
      rfl

theorem contains_pair (x : Char) (s : Str) : contains [x, x] s = true ↔ ∃ a b, s = a ++ x :: x :: b := by
  rw [contains_iff]
  simp

/-! ## Turns of the loop -/

theorem run_mono (n k : Nat) (p : Parsed) (ts : List Str) (r : Except Err Parsed) (h : run lex n p ts = some r) :
    run lex (n + k) p ts = some r := by
  induction n generalizing p ts with
  | zero =>
    cases ts with
    | nil =>
      rw [run] at h
      cases k <;> rw [run] <;> exact h
    | cons t ts => cases h
  | succ n ih =>
    cases ts with
    | nil =>
      rw [run] at h
      rw [Nat.succ_add, run]
      exact h
    | cons t ts =>
      rw [Nat.succ_add]
      rw [run] at h ⊢
      cases hs : step lex p t ts with
      | error e => rw [hs] at h; exact h
      | ok st =>
        rw [hs] at h
        exact ih _ _ h

/-- From one state the loop comes to another. -/
def Leads (lex : Lex) (p : Parsed) (ts : List Str) (p' : Parsed) (ts' : List Str) : Prop :=
  ∃ k, ∀ n, run lex (n + k) p ts = run lex n p' ts'

theorem Leads.refl (p : Parsed) (ts : List Str) : Leads lex p ts p ts := ⟨0, fun _ => rfl⟩

theorem Leads.trans {p p' p'' : Parsed} {ts ts' ts'' : List Str} (h1 : Leads lex p ts p' ts') (h2 : Leads lex p' ts' p'' ts'') :
    Leads lex p ts p'' ts'' := by
  obtain ⟨k, h1⟩ := h1
  obtain ⟨m, h2⟩ := h2
  exact ⟨m + k, fun n => by rw [← Nat.add_assoc, h1, h2]⟩

theorem Leads.one {p p' : Parsed} {t : Str} {ts ts' : List Str} (h : step lex p t ts = .ok (p', ts')) :
    Leads lex p (t :: ts) p' ts' := ⟨1, fun n => by rw [run, h]⟩

theorem Leads.blank {p : Parsed} {t : Str} {ts : List Str} (h : strip t = []) : Leads lex p (t :: ts) p ts :=
  Leads.one (by rw [step, if_pos h])

theorem Leads.ends {p p' : Parsed} {ts : List Str} (h : Leads lex p ts p' []) : ∃ n, run lex n p ts = some (.ok p') := by
  obtain ⟨k, h⟩ := h
  exact ⟨0 + k, by rw [h]; rfl⟩

/-- A part at which the loop stays. -/
def Stuck (lex : Lex) (t : Str) : Prop := strip t ≠ [] ∧
  lex.upper t ∉ ["SELECT", "FROM", "WHERE", "GROUP BY", "HAVING", "ORDER BY", "LIMIT"].map String.toList

theorem step_stuck (p : Parsed) (t : Str) (ts : List Str) (h : Stuck lex t) : step lex p t ts = .ok (p, t :: ts) := by
  obtain ⟨h1, h2⟩ := h
  simp only [List.map_cons, List.map_nil, List.mem_cons, List.not_mem_nil, or_false, not_or] at h2
  obtain ⟨a, b, c, d, e, f, g⟩ := h2
  unfold step
  rw [if_neg h1, if_neg a, if_neg b, if_neg c, if_neg d, if_neg e, if_neg f, if_neg g]

theorem run_stuck (n : Nat) (p : Parsed) (t : Str) (ts : List Str) (h : Stuck lex t) : run lex n p (t :: ts) = none := by
  induction n with
  | zero => rfl
  | succ n ih => rw [run, step_stuck p t ts h]; exact ih

theorem Leads.stuck {p p' : Parsed} {t : Str} {ts ts' : List Str} (h : Leads lex p ts p' (t :: ts')) (ht : Stuck lex t) (n : Nat) :
    run lex n p ts = none := by
  obtain ⟨k, h⟩ := h
  cases hr : run lex n p ts with
  | none => rfl
  | some r =>
    have := run_mono n k p ts r hr
    rw [h, run_stuck n p' t ts' ht] at this
    cases this

/-! ## Pieces -/

/-- The pieces of a text. -/
def toks (re : Re) (prev : Option Char) (s : Str) : List Str := F (scan re keywords prev [] s)

theorem parts_toks (s : Str) : parts re s = toks re none s := rfl

/-- What is left after the space. -/
def rest (re : Re) : Str → List Str
  | [] => []
  | c :: u => toks re (some c) u

theorem fresh_space (hre : SaneRe re) : Fresh re (some ' ') := by
  intro a ha
  injection ha with ha
  subst ha
  exact space_nonword hre (by decide)

theorem key_ne {k : Str} (hk : capitals k ∈ sqlParts) : k ≠ [] := by
  rintro rfl
  exact (parts_chars _ hk).1 rfl

theorem key_toks (hre : SaneRe re) {prev : Option Char} {k tail : Str} (hk : capitals k ∈ sqlParts) (hp : Fresh re prev)
    (ht : tail = [] ∨ ∃ u, tail = ' ' :: u) : toks re prev (k ++ tail) = k :: tailParts re tail := by
  have he : Edge re tail := by
    rcases ht with rfl | ⟨u, rfl⟩
    · intro c hc; cases hc
    · exact edge_space hre u
  unfold toks
  rw [scan_key hre prev [] k tail hk hp he, F_cons_nil, F_cons _ _ (key_ne hk)]
  rcases ht with rfl | ⟨u, rfl⟩
  · rfl
  · rw [scan_single hre _ _ _ _ (Or.inr (Or.inr (Or.inr (by decide)))), F_cons_nil, F_cons _ _ (by simp)]
    rfl

/-- What follows a clause: nothing, or a space and a keyword. -/
def Next (re : Re) (lex : Lex) (tail : Str) : Prop := tail = [] ∨ ∃ u k r, tail = ' ' :: u ∧ toks re (some ' ') u = k :: r ∧
  isBody lex k = false ∧ ∀ c, u.head? = some c → re.same 'B' c = false

theorem Next.tail {tail : Str} (h : Next re lex tail) : Tail re tail := by
  rcases h with rfl | ⟨u, k, r, rfl, _, _, h⟩
  · exact Or.inl rfl
  · exact Or.inr ⟨u, rfl, h⟩

theorem Next.shape {tail : Str} (h : Next re lex tail) : tail = [] ∨ ∃ u, tail = ' ' :: u := by
  rcases h with rfl | ⟨u, k, r, rfl, _⟩
  · exact Or.inl rfl
  · exact Or.inr ⟨u, rfl⟩

theorem blank_space : strip [' '] = [] := by decide

/-- The space before what is left is passed over. -/
theorem leads_rest (p : Parsed) {tail : Str} (h : tail = [] ∨ ∃ u, tail = ' ' :: u) :
    Leads lex p (tailParts re tail) p (rest re tail) := by
  rcases h with rfl | ⟨u, rfl⟩
  · exact Leads.refl _ _
  · exact Leads.blank blank_space

theorem takeWhile_all {α : Type} (f : α → Bool) (l m : List α) (h : ∀ x ∈ l, f x = true) :
    (l ++ m).takeWhile f = l ++ m.takeWhile f ∧ (l ++ m).dropWhile f = m.dropWhile f := by
  induction l with
  | nil => exact ⟨rfl, rfl⟩
  | cons x l ih =>
    have hx := h x (List.mem_cons_self ..)
    obtain ⟨h1, h2⟩ := ih (fun y hy => h y (List.mem_cons_of_mem _ hy))
    simp only [List.cons_append, List.takeWhile_cons, List.dropWhile_cons, hx, if_true, h1, h2]
    simp

/-- A clause is collected up to the next keyword. -/
theorem collect (hl : Sane lex) {b tail : Str} {bp lead : List Str} (hb : Body re lex b) (hn : Next re lex tail)
    (hf : bp.flatten = b) (hbp : ∀ t ∈ bp, isBody lex t = true) (hlead : lead = [] ∨ lead = [[' ']]) :
    collector lex (lead ++ (bp ++ tailParts re tail)) = (b, rest re tail) := by
  have hsp : isBody lex [' '] = true := isBody_single hl (Or.inr (Or.inr (Or.inr (by decide))))
  have hll : ∀ t ∈ lead ++ bp, isBody lex t = true := by
    intro t ht
    rcases List.mem_append.1 ht with ht | ht
    · rcases hlead with rfl | rfl
      · cases ht
      · rw [List.mem_singleton] at ht; rw [ht]; exact hsp
    · exact hbp t ht
  have hlf : Mabel.Tokenizer.Blank lead.flatten := by
    rcases hlead with rfl | rfl
    · intro c hc; cases hc
    · intro c hc
      have : c = ' ' := by simpa using hc
      rw [this]; decide
  unfold collector
  rw [← List.append_assoc, (takeWhile_all _ _ _ hll).1, (takeWhile_all _ _ _ hll).2]
  rcases hn with rfl | ⟨u, k, r, rfl, hk, hkb, _⟩
  · show (strip ((lead ++ bp) ++ []).flatten, []) = _
    rw [List.append_nil, List.flatten_append, hf]
    have := strip_pad lead.flatten b [] hlf (fun c hc => by cases hc) hb.first hb.last
    rw [List.append_nil] at this
    rw [this]
    rfl
  · have e : tailParts re (' ' :: u) = [' '] :: k :: r := by rw [← hk]; rfl
    rw [e, List.takeWhile_cons_of_pos hsp, List.dropWhile_cons_of_pos hsp, List.takeWhile_cons_of_neg (by rw [hkb]; simp),
      List.dropWhile_cons_of_neg (by rw [hkb]; simp)]
    rw [List.flatten_append, List.flatten_append, hf]
    have := strip_pad lead.flatten b [' '] hlf (fun c hc => by rw [List.mem_singleton.1 hc]; decide) hb.first hb.last
    show (strip (lead.flatten ++ b ++ [' ']), k :: r) = _
    rw [this, ← hk]
    rfl

/-- The pieces of the text of a clause. -/
theorem body_toks (hre : SaneRe re) (hl : Sane lex) {b tail : Str} (prev : Option Char) (hb : Body re lex b) (ht : Tail re tail) :
    ∃ bp, toks re prev (b ++ tail) = bp ++ tailParts re tail ∧ bp.flatten = b ∧ ∀ t ∈ bp, isBody lex t = true := by
  obtain ⟨bp, h1, h2, h3⟩ := scan_body hre hl hb.plain ht b [] [] prev rfl (by intro d hd; cases hd) (by intro d hd; cases hd)
  exact ⟨bp, h1, h2, h3⟩

theorem toks_ne (prev : Option Char) (s : Str) : [] ∉ toks re prev s := by
  unfold toks F
  intro h
  rw [List.mem_filter] at h
  simp at h

/-- The first piece of the text of a clause. -/
theorem body_first (hre : SaneRe re) (hl : Sane lex) {b tail : Str} (prev : Option Char) (hb : Body re lex b) (ht : Tail re tail) :
    ∃ t bp, toks re prev (b ++ tail) = (t :: bp) ++ tailParts re tail ∧ (t :: bp).flatten = b ∧
      (∀ x ∈ t :: bp, isBody lex x = true) ∧ ∃ c cs, t = c :: cs ∧ b.head? = some c ∧ isSpace c = false := by
  obtain ⟨bp, h1, h2, h3⟩ := body_toks hre hl prev hb ht
  obtain ⟨c, cs, e, hc⟩ := hb.first
  cases bp with
  | nil => rw [e] at h2; cases h2
  | cons t bp =>
    refine ⟨t, bp, h1, h2, h3, ?_⟩
    have hne : t ≠ [] := by
      rintro rfl
      exact toks_ne (re := re) prev (b ++ tail) (by rw [h1]; simp)
    obtain ⟨d, ds, rfl⟩ := List.exists_cons_of_ne_nil hne
    rw [e] at h2
    injection h2 with h2 _
    subst h2
    exact ⟨d, ds, rfl, by rw [e]; rfl, hc⟩

theorem strip_first {c : Char} {cs : Str} (hc : isSpace c = false) : ∃ ds, strip (c :: cs) = c :: ds := by
  unfold strip
  rw [List.dropWhile_cons_of_neg (by rw [hc]; simp), List.reverse_cons, dropWhile_snoc _ _ hc]
  simp

theorem mem_strip {s : Str} {c : Char} (h : c ∈ strip s) : c ∈ s := by
  unfold strip at h
  rw [List.mem_reverse] at h
  have := (List.dropWhile_sublist _).subset h
  rw [List.mem_reverse] at this
  exact (List.dropWhile_sublist _).subset this

theorem label_empty_iff (t : Str) : label lex t = .empty ↔ strip t = [] := by
  constructor
  · intro h
    by_contra hne
    rw [Mabel.Expression.label_core, Mabel.Expression.core, if_neg hne] at h
    refine absurd h ?_
    repeat' apply Mabel.Expression.ite_ne
    all_goals decide
  · intro h
    rw [Mabel.Expression.label_core, Mabel.Expression.core, if_pos h]

theorem upper_key (hl : Sane lex) {k : Str} (hk : capitals k ∈ sqlParts) : lex.upper k = capitals k :=
  upper_ascii hl k (fun c hc => (key_chars hk c hc).1)

theorem key_strip (hre : SaneRe re) {k : Str} (hk : capitals k ∈ sqlParts) : strip k ≠ [] := by
  obtain ⟨c, cs, rfl⟩ := List.exists_cons_of_ne_nil (key_ne hk)
  have h := (parts_chars _ hk).2.2.1 c.toUpper rfl
  have hc : isSpace c = false := by
    cases hs : isSpace c with
    | false => rfl
    | true =>
      rw [(key_chars hk c (List.mem_cons_self ..)).2.1 hs] at h
      exact absurd h.1 (by decide)
  obtain ⟨ds, h⟩ := strip_first (cs := cs) hc
  rw [h]
  simp

theorem key_not_body (hl : Sane lex) {k : Str} (hk : capitals k ∈ sqlParts) : isBody lex k = false := by
  unfold isBody
  rw [upper_key hl hk]
  simpa using hk

/-! ## Clauses -/

theorem body_piece {b : Str} {t : Str} (h : ∃ c cs, t = c :: cs ∧ b.head? = some c ∧ isSpace c = false) : strip t ≠ [] := by
  obtain ⟨c, cs, rfl, _, hc⟩ := h
  obtain ⟨ds, h⟩ := strip_first (cs := cs) hc
  rw [h]
  simp

theorem skip_space {t : Str} {l : List Str} (ht : strip t ≠ []) : skipEmpty lex ([' '] :: t :: l) = t :: l := by
  unfold skipEmpty
  rw [List.dropWhile_cons_of_pos (by simp [label_empty_iff, blank_space]),
    List.dropWhile_cons_of_neg (by simp [label_empty_iff, ht])]

theorem not_key_of_body {t : Str} (h : isBody lex t = true) : ∀ k ∈ sqlParts, lex.upper t ≠ k := by
  unfold isBody at h
  intro k hk e
  rw [e] at h
  simp [hk] at h

theorem in_parts : ∀ k ∈ ["SELECT", "DISTINCT", "FROM", "WHERE", "GROUP BY", "HAVING", "ORDER BY", "ASC", "DESC", "LIMIT"].map String.toList,
    k ∈ sqlParts := fun _ h => h

/-- The text of a clause after its keyword. -/
theorem after_key (hre : SaneRe re) {prev : Option Char} {k s tail : Str} (hk : capitals k ∈ sqlParts) (hp : Fresh re prev) :
    toks re prev (k ++ ' ' :: s ++ tail) = k :: [' '] :: toks re (some ' ') (s ++ tail) := by
  rw [List.append_assoc, List.cons_append, key_toks hre hk hp (Or.inr ⟨_, rfl⟩)]
  rfl

theorem leads_select (hre : SaneRe re) (hl : Sane lex) {prev : Option Char} {k b tail : Str} (p : Parsed) (hk : capitals k = "SELECT".toList)
    (hb : Body re lex b) (hp : Fresh re prev) (hn : Next re lex tail) :
    Leads lex p (toks re prev (k ++ ' ' :: b ++ tail)) { p with select := some b } (rest re tail) := by
  have hkm : capitals k ∈ sqlParts := by rw [hk]; decide +kernel
  obtain ⟨t, bp, h1, h2, h3, h4⟩ := body_first hre hl (some ' ') hb hn.tail
  rw [after_key hre hkm hp, h1]
  apply Leads.one
  rw [step, if_neg (key_strip hre hkm), upper_key hl hkm, hk, if_pos rfl, stepSelect, List.cons_append, skip_space (body_piece h4)]
  simp only
  rw [if_neg (not_key_of_body (h3 t (List.mem_cons_self ..)) _ (by decide +kernel))]
  have := collect (lead := []) hl hb hn h2 h3 (Or.inl rfl)
  rw [List.nil_append, List.cons_append] at this
  rw [this]

theorem leads_distinct (hre : SaneRe re) (hl : Sane lex) {prev : Option Char} {k d b tail : Str} (p : Parsed)
    (hk : capitals k = "SELECT".toList) (hd : capitals d = "DISTINCT".toList)
    (hb : Body re lex b) (hp : Fresh re prev) (hn : Next re lex tail) :
    Leads lex p (toks re prev (k ++ ' ' :: (d ++ ' ' :: b) ++ tail)) { p with select := some b, distinct := true } (rest re tail) := by
  have hkm : capitals k ∈ sqlParts := by rw [hk]; decide +kernel
  have hdm : capitals d ∈ sqlParts := by rw [hd]; decide +kernel
  obtain ⟨t, bp, h1, h2, h3, h4⟩ := body_first hre hl (some ' ') hb hn.tail
  rw [after_key hre hkm hp, after_key hre hdm (fresh_space hre), h1]
  apply Leads.one
  rw [step, if_neg (key_strip hre hkm), upper_key hl hkm, hk, if_pos rfl, stepSelect, List.cons_append, skip_space (key_strip hre hdm)]
  simp only
  rw [if_pos (by rw [upper_key hl hdm, hd]), skip_space (body_piece h4)]
  have := collect (lead := []) hl hb hn h2 h3 (Or.inl rfl)
  rw [List.nil_append, List.cons_append] at this
  rw [this]

theorem leads_dataset (hre : SaneRe re) (hl : Sane lex) {prev : Option Char} {k b tail : Str} (p : Parsed) (hk : capitals k = "FROM".toList)
    (hb : Body re lex b) (hp1 : b.head? ≠ some '(') (hp2 : b.head? ≠ some '[') (hp : Fresh re prev) (hn : Next re lex tail) :
    Leads lex p (toks re prev (k ++ ' ' :: b ++ tail))
      { p with source := some (.dataset (b.map (fun c => if c = '.' then '/' else c))) } (rest re tail) := by
  have hkm : capitals k ∈ sqlParts := by rw [hk]; decide +kernel
  obtain ⟨t, bp, h1, h2, h3, h4⟩ := body_first hre hl (some ' ') hb hn.tail
  have hleft : label lex t ≠ .left := by
    intro h
    obtain ⟨c, cs, rfl, hc, hs⟩ := h4
    obtain ⟨ds, e⟩ := strip_first (cs := cs) hs
    -- a left parenthesis
    have hcore : strip (c :: cs) = "(".toList ∨ strip (c :: cs) = "[".toList := by
      by_contra hno
      rw [Mabel.Expression.label_core, Mabel.Expression.core, if_neg hno] at h
      refine absurd h ?_
      repeat' apply Mabel.Expression.ite_ne
      all_goals decide
    rw [e] at hcore
    have hcore : c :: ds = ['('] ∨ c :: ds = ['['] := hcore
    rcases hcore with h | h
    · injection h with h _; exact hp1 (by rw [hc, h])
    · injection h with h _; exact hp2 (by rw [hc, h])
  rw [after_key hre hkm hp, h1]
  apply Leads.one
  rw [step, if_neg (key_strip hre hkm), upper_key hl hkm, hk, if_neg (by decide), if_pos rfl, stepFrom, List.cons_append,
    skip_space (body_piece h4)]
  simp only
  rw [if_neg hleft]
  have := collect (lead := []) hl hb hn h2 h3 (Or.inl rfl)
  rw [List.nil_append, List.cons_append] at this
  rw [this, show ".".toList = ['.'] from rfl, show "/".toList = ['/'] from rfl, replace_char]

/-- The clauses that are collected after their keyword. -/
theorem collect_after (hre : SaneRe re) (hl : Sane lex) {prev : Option Char} {k b tail : Str} (hk : capitals k ∈ sqlParts)
    (hb : Body re lex b) (hp : Fresh re prev) (hn : Next re lex tail) :
    ∃ ts, toks re prev (k ++ ' ' :: b ++ tail) = k :: ts ∧ collector lex ts = (b, rest re tail) := by
  obtain ⟨bp, h1, h2, h3⟩ := body_toks hre hl (some ' ') hb hn.tail
  refine ⟨[' '] :: (bp ++ tailParts re tail), by rw [after_key hre hk hp, h1], ?_⟩
  have := collect (lead := [[' ']]) hl hb hn h2 h3 (Or.inr rfl)
  exact this

theorem leads_where (hre : SaneRe re) (hl : Sane lex) {prev : Option Char} {k b tail : Str} (p : Parsed) (hk : capitals k = "WHERE".toList)
    (hb : Body re lex b) (hp : Fresh re prev) (hn : Next re lex tail) :
    Leads lex p (toks re prev (k ++ ' ' :: b ++ tail)) { p with whereExpr := some b } (rest re tail) := by
  have hkm : capitals k ∈ sqlParts := by rw [hk]; decide +kernel
  obtain ⟨ts, h1, h2⟩ := collect_after hre hl hkm hb hp hn
  rw [h1]
  apply Leads.one
  rw [step, if_neg (key_strip hre hkm), upper_key hl hkm, hk, if_neg (by decide), if_neg (by decide), if_pos rfl, h2]

theorem leads_group (hre : SaneRe re) (hl : Sane lex) {prev : Option Char} {k b tail : Str} (p : Parsed) (hk : capitals k = "GROUP BY".toList)
    (hb : Body re lex b) (hp : Fresh re prev) (hn : Next re lex tail) :
    Leads lex p (toks re prev (k ++ ' ' :: b ++ tail)) { p with groupBy := some b } (rest re tail) := by
  have hkm : capitals k ∈ sqlParts := by rw [hk]; decide +kernel
  obtain ⟨ts, h1, h2⟩ := collect_after hre hl hkm hb hp hn
  rw [h1]
  apply Leads.one
  rw [step, if_neg (key_strip hre hkm), upper_key hl hkm, hk, if_neg (by decide), if_neg (by decide), if_neg (by decide), if_pos rfl, h2]

theorem leads_having (hre : SaneRe re) (hl : Sane lex) {prev : Option Char} {k b tail : Str} (p : Parsed) (hk : capitals k = "HAVING".toList)
    (hb : Body re lex b) (hp : Fresh re prev) (hn : Next re lex tail) :
    Leads lex p (toks re prev (k ++ ' ' :: b ++ tail)) { p with having := some b } (rest re tail) := by
  have hkm : capitals k ∈ sqlParts := by rw [hk]; decide +kernel
  obtain ⟨ts, h1, h2⟩ := collect_after hre hl hkm hb hp hn
  rw [h1]
  apply Leads.one
  rw [step, if_neg (key_strip hre hkm), upper_key hl hkm, hk, if_neg (by decide), if_neg (by decide), if_neg (by decide),
    if_neg (by decide), if_pos rfl, h2]

theorem step_order (hre : SaneRe re) (hl : Sane lex) (p : Parsed) {k : Str} (ts : List Str) (hk : capitals k = "ORDER BY".toList) :
    step lex p k ts = .ok (stepOrder lex p ts) := by
  have hkm : capitals k ∈ sqlParts := by rw [hk]; decide +kernel
  rw [step, if_neg (key_strip hre hkm), upper_key hl hkm, hk, if_neg (by decide), if_neg (by decide), if_neg (by decide),
    if_neg (by decide), if_neg (by decide), if_pos rfl]

theorem leads_order (hre : SaneRe re) (hl : Sane lex) {prev : Option Char} {k b : Str} (p : Parsed) (hk : capitals k = "ORDER BY".toList)
    (hb : Body re lex b) (hp : Fresh re prev) :
    Leads lex p (toks re prev (k ++ ' ' :: b)) { p with orderBy := some b } [] := by
  have hkm : capitals k ∈ sqlParts := by rw [hk]; decide +kernel
  obtain ⟨ts, h1, h2⟩ := collect_after (tail := []) hre hl hkm hb hp (Or.inl rfl)
  rw [List.append_nil] at h1
  rw [h1]
  apply Leads.one
  rw [step_order hre hl p ts hk, stepOrder, h2]
  rfl

theorem key_head (hre : SaneRe re) {k : Str} (hk : capitals k ∈ sqlParts) (t : Str) : ∀ c, (k ++ t).head? = some c → re.same 'B' c = false := by
  obtain ⟨c, cs, rfl⟩ := List.exists_cons_of_ne_nil (key_ne hk)
  intro d hd
  injection hd with hd
  subst hd
  have h := (parts_chars _ hk).2.2.1 c.toUpper rfl
  have hc := (key_chars hk c (List.mem_cons_self ..)).1
  rw [hre.same _ _ (by decide) hc]
  have : 'B'.toUpper = 'B' := rfl
  rw [this]
  simpa using h.2

theorem next_key (hre : SaneRe re) (hl : Sane lex) {k t : Str} (hk : capitals k ∈ sqlParts) (ht : t = [] ∨ ∃ u, t = ' ' :: u) :
    Next re lex (' ' :: (k ++ t)) :=
  Or.inr ⟨_, k, _, rfl, key_toks hre hk (fresh_space hre) ht, key_not_body hl hk, key_head hre hk t⟩

theorem leads_direction (hre : SaneRe re) (hl : Sane lex) {prev : Option Char} {k b d tail : Str} (p : Parsed)
    (hk : capitals k = "ORDER BY".toList) (down : Bool) (hd : capitals d = if down then "DESC".toList else "ASC".toList)
    (hb : Body re lex b) (hp : Fresh re prev) (hn : Next re lex tail) :
    Leads lex p (toks re prev (k ++ ' ' :: (b ++ ' ' :: d) ++ tail)) { p with orderBy := some b, descending := down } (rest re tail) := by
  have hkm : capitals k ∈ sqlParts := by rw [hk]; decide +kernel
  have hdm : capitals d ∈ sqlParts := by rw [hd]; cases down <;> decide +kernel
  obtain ⟨ts, h1, h2⟩ := collect_after hre hl hkm hb hp (next_key hre hl hdm hn.shape)
  have e : k ++ ' ' :: (b ++ ' ' :: d) ++ tail = k ++ ' ' :: b ++ ' ' :: (d ++ tail) := by simp
  rw [e, h1]
  refine (Leads.one (p' := { p with orderBy := some b, descending := down }) (ts' := tailParts re tail) ?_).trans (leads_rest _ hn.shape)
  rw [step_order hre hl p ts hk, stepOrder, h2, rest, key_toks hre hdm (fresh_space hre) hn.shape]
  simp only
  rw [upper_key hl hdm, hd]
  cases down
  · rw [if_pos (by decide)]; rfl
  · rw [if_pos (by decide)]; rfl

/-- ORDER BY without a direction takes the next keyword away. -/
theorem leads_order_next (hre : SaneRe re) (hl : Sane lex) {prev : Option Char} {k b k' t : Str} (p : Parsed)
    (hk : capitals k = "ORDER BY".toList) (hb : Body re lex b) (hp : Fresh re prev) (hk' : capitals k' ∈ sqlParts)
    (hn : capitals k' ≠ "ASC".toList ∧ capitals k' ≠ "DESC".toList) :
    Leads lex p (toks re prev (k ++ ' ' :: b ++ ' ' :: (k' ++ ' ' :: t))) { p with orderBy := some b } ([' '] :: toks re (some ' ') t) := by
  have hkm : capitals k ∈ sqlParts := by rw [hk]; decide +kernel
  obtain ⟨ts, h1, h2⟩ := collect_after hre hl hkm hb hp (next_key hre hl hk' (Or.inr ⟨t, rfl⟩))
  rw [h1]
  apply Leads.one
  rw [step_order hre hl p ts hk, stepOrder, h2, rest, key_toks hre hk' (fresh_space hre) (Or.inr ⟨_, rfl⟩)]
  simp only
  rw [upper_key hl hk', if_neg (by simp only [not_or]; exact hn)]
  rfl

/-! ### LIMIT -/

theorem nokey_plain (hre : SaneRe re) (hl : Sane lex) {s : Str} (hs : ∀ c ∈ s, c.toNat < 128 ∧ c.toUpper.isAlpha = false) :
    NoKey re lex s := by
  intro a k b e h
  exfalso
  have hk : ∀ c ∈ k, c.toNat < 128 ∧ c.toUpper.isAlpha = false := fun c hc => hs c (by rw [e]; simp [hc])
  obtain ⟨K, hK, h⟩ := h
  obtain ⟨hne, _, hf, _⟩ := parts_chars K hK
  obtain ⟨q, K', rfl⟩ := List.exists_cons_of_ne_nil hne
  rcases h with h | h
  · rw [upper_ascii hl k (fun c hc => (hk c hc).1)] at h
    cases k with
    | nil => cases h
    | cons c k =>
      injection h with h _
      have := (hf q rfl).1
      rw [← h, (hk c (List.mem_cons_self ..)).2] at this
      cases this
  · obtain ⟨c, hc, _, hsame⟩ := reads_first hre (k := q :: K') rfl (hf q rfl).1 h
    cases k with
    | nil => cases hc
    | cons d k =>
      injection hc with hc
      subst hc
      obtain ⟨h1, h2⟩ := hk d (List.mem_cons_self ..)
      have hq := (parts_chars _ hK).2.1 q (List.mem_cons_self ..)
      have hqa := (hf q rfl).1
      have hqu : q.toUpper = q := by
        rcases hq with rfl | hq
        · exact absurd hqa (by decide)
        · exact hq.2
      rw [hre.same q d (alphanum_ascii q (by simp [Char.isAlphanum, hqa])) h1, beq_iff_eq, hqu] at hsame
      rw [hsame, hqa] at h2
      cases h2

theorem intStr_body (hre : SaneRe re) (hl : Sane lex) (i : Int) : Body re lex (intStr i) where
  first := by
    obtain ⟨c, s, h1, h2⟩ := Mabel.Expression.intStr_cons i
    exact ⟨c, s, h1, Mabel.Expression.intStr_fact i (P := fun c => isSpace c = false) (by decide)
      (fun k hk => (Mabel.Expression.intChar_facts k hk).2.2.1) c h2⟩
  last := by
    obtain ⟨x, hx⟩ := Option.isSome_iff_exists.1
      (by rw [List.getLast?_isSome]; exact Mabel.Expression.intStr_ne_nil i : (intStr i).getLast?.isSome = true)
    exact ⟨x, hx, Mabel.Expression.intStr_fact i (P := fun c => isSpace c = false) (by decide)
      (fun k hk => (Mabel.Expression.intChar_facts k hk).2.2.1) x (List.mem_of_getLast? hx)⟩
  plain := nokey_plain hre hl (Mabel.Expression.intStr_fact i (by decide) (by decide))

theorem leads_limit (hre : SaneRe re) (hl : Sane lex) {prev : Option Char} {k tail : Str} (p : Parsed) (i : Int)
    (hk : capitals k = "LIMIT".toList) (hp : Fresh re prev) (hn : Next re lex tail) :
    Leads lex p (toks re prev (k ++ ' ' :: intStr i ++ tail)) { p with limit := some i } (rest re tail) := by
  have hkm : capitals k ∈ sqlParts := by rw [hk]; decide +kernel
  obtain ⟨ts, h1, h2⟩ := collect_after hre hl hkm (intStr_body hre hl i) hp hn
  rw [h1]
  apply Leads.one
  rw [step, if_neg (key_strip hre hkm), upper_key hl hkm, hk, if_neg (by decide), if_neg (by decide), if_neg (by decide),
    if_neg (by decide), if_neg (by decide), if_neg (by decide), if_pos rfl, h2, Mabel.Expression.pyInt_intStr]

/-! ### Subqueries -/

theorem depth_plain (n : Nat) (t s : Str) (h1 : '(' ∉ t) (h2 : ')' ∉ t) : depth n (t ++ s) = depth n s := by
  induction t with
  | nil => rfl
  | cons c t ih =>
    simp only [List.mem_cons, not_or] at h1 h2
    rw [List.cons_append, depth, if_neg (Ne.symm h1.1), if_neg (Ne.symm h2.1)]
    exact ih h1.2 h2.2

theorem label_plain {t : Str} (h : ∀ c ∈ t, c ≠ '(' ∧ c ≠ ')' ∧ c ≠ '[' ∧ c ≠ ']') : label lex t ≠ .left ∧ label lex t ≠ .right := by
  have : ¬ (label lex t = .left ∨ label lex t = .right) := by
    intro hc
    have hp := label_paren lex t hc
    unfold isParen at hp
    have hp : strip t = ['('] ∨ strip t = ['['] ∨ strip t = [')'] ∨ strip t = [']'] := by simpa using hp
    have hm : ∀ c, strip t = [c] → c ∈ t := fun c hc => mem_strip (by rw [hc]; simp)
    rcases hp with e | e | e | e
    · exact (h _ (hm _ e)).1 rfl
    · exact (h _ (hm _ e)).2.2.1 rfl
    · exact (h _ (hm _ e)).2.1 rfl
    · exact (h _ (hm _ e)).2.2.2 rfl
  exact ⟨fun hc => this (Or.inl hc), fun hc => this (Or.inr hc)⟩

theorem collect_inside (hl : Sane lex) (rest : List Str) : ∀ (sp : List Str) (n : Nat),
    (∀ t ∈ sp, t = ['('] ∨ t = [')'] ∨ ('(' ∉ t ∧ ')' ∉ t)) → '[' ∉ sp.flatten → ']' ∉ sp.flatten →
    depth n sp.flatten = some 0 → collectInside lex (n + 1) (sp ++ [')'] :: rest) = some (sp, rest) := by
  have hleft : label lex ['('] = .left := (label_punctuation hl).1
  have hright : label lex [')'] = .right := (label_punctuation hl).2.1
  intro sp
  induction sp with
  | nil =>
    intro n _ _ _ h
    have hn : n = 0 := by simpa [depth] using h
    subst hn
    rw [List.nil_append, collectInside, if_pos hright, if_pos rfl]
  | cons t sp ih =>
    intro n hsp h1 h2 h
    have hrest := fun x hx => hsp x (List.mem_cons_of_mem _ hx)
    rw [List.flatten_cons, List.mem_append, not_or] at h1 h2
    rcases hsp t (List.mem_cons_self ..) with rfl | rfl | ⟨h3, h4⟩
    · have hd : depth (n + 1) sp.flatten = some 0 := by
        rw [List.flatten_cons, List.cons_append, depth, if_pos rfl] at h
        exact h
      rw [List.cons_append, collectInside, if_neg (by rw [hleft]; decide), if_pos hleft, ih (n + 1) hrest h1.2 h2.2 hd]
      rfl
    · rw [List.flatten_cons, List.cons_append, depth, if_neg (by decide), if_pos rfl] at h
      cases n with
      | zero => cases h
      | succ n =>
        rw [if_neg (by omega)] at h
        rw [List.cons_append, collectInside, if_pos hright, if_neg (by omega)]
        have := ih n hrest h1.2 h2.2 h
        rw [show n + 1 + 1 - 1 = n + 1 by omega, this]
        rfl
    · rw [List.flatten_cons, depth_plain n t _ h3 h4] at h
      obtain ⟨l1, l2⟩ := label_plain (lex := lex) (t := t) (fun c hc => ⟨fun e => h3 (e ▸ hc), fun e => h4 (e ▸ hc), fun e => h1.1 (e ▸ hc),
        fun e => h2.1 (e ▸ hc)⟩)
      rw [List.cons_append, collectInside, if_neg l2, if_neg l1, ih n hrest h1.2 h2.2 h]
      rfl

theorem leads_subquery (hre : SaneRe re) (hl : Sane lex) {prev : Option Char} {k s tail : Str} (p : Parsed) (hk : capitals k = "FROM".toList)
    (hs : depth 0 s = some 0) (h1 : '[' ∉ s) (h2 : ']' ∉ s) (hp : Fresh re prev) (hn : tail = [] ∨ ∃ u, tail = ' ' :: u) :
    ∃ sp : List Str, sp.flatten = s ∧
      Leads lex p (toks re prev (k ++ ' ' :: '(' :: (s ++ [')']) ++ tail)) { p with source := some (.subquery sp) } (rest re tail) := by
  have hkm : capitals k ∈ sqlParts := by rw [hk]; decide +kernel
  obtain ⟨sp, i1, i2, i3⟩ := scan_inside hre tail s.length s [] (some '(') (Nat.le_refl _) (by simp) (by simp)
  rw [List.nil_append] at i2
  refine ⟨sp, i2, ?_⟩
  have e : '(' :: (s ++ [')']) ++ tail = '(' :: (s ++ ')' :: tail) := by simp
  rw [after_key hre hkm hp, e]
  have ht : toks re (some ' ') ('(' :: (s ++ ')' :: tail)) = ['('] :: (sp ++ [')'] :: tailParts re tail) := by
    unfold toks
    rw [scan_single hre _ _ _ _ (Or.inl rfl), F_cons_nil, F_cons _ _ (by simp), i1]
    congr 2
    show [')'] :: F (scan re keywords (some ')') [] tail) = _
    congr 1
    rcases hn with rfl | ⟨u, rfl⟩
    · rfl
    · rw [scan_single hre _ _ _ _ (Or.inr (Or.inr (Or.inr (by decide)))), F_cons_nil, F_cons _ _ (by simp)]
      rfl
  rw [ht]
  refine (Leads.one (p' := { p with source := some (.subquery sp) }) (ts' := tailParts re tail) ?_).trans (leads_rest _ hn)
  rw [step, if_neg (key_strip hre hkm), upper_key hl hkm, hk, if_neg (by decide), if_pos rfl, stepFrom, skip_space (by decide)]
  simp only
  rw [if_pos (show label lex ['('] = .left from (label_punctuation hl).1), collect_inside hl _ sp 0 i3 (by rw [i2]; exact h1) (by rw [i2]; exact h2) (by rw [i2]; exact hs)]

/-! ## Statements -/

theorem written_head {c : Clause} {t : Str} (h : c.Written re lex t) : ∃ k s, t = k ++ ' ' :: s ∧
    capitals k ∈ sqlParts ∧ capitals k ≠ "ASC".toList ∧ capitals k ≠ "DESC".toList := by
  cases h with
  | select h _ => exact ⟨_, _, rfl, by rw [h]; decide +kernel⟩
  | distinct h _ _ => exact ⟨_, _, rfl, by rw [h]; decide +kernel⟩
  | dataset h _ _ _ => exact ⟨_, _, rfl, by rw [h]; decide +kernel⟩
  | subquery h _ _ _ => exact ⟨_, _, rfl, by rw [h]; decide +kernel⟩
  | where_ h _ => exact ⟨_, _, rfl, by rw [h]; decide +kernel⟩
  | groupBy h _ => exact ⟨_, _, rfl, by rw [h]; decide +kernel⟩
  | having h _ => exact ⟨_, _, rfl, by rw [h]; decide +kernel⟩
  | orderBy h _ => exact ⟨_, _, rfl, by rw [h]; decide +kernel⟩
  | descending h _ _ => exact ⟨_, _, rfl, by rw [h]; decide +kernel⟩
  | ascending h _ _ => exact ⟨_, _, rfl, by rw [h]; decide +kernel⟩
  | limit h => exact ⟨_, _, rfl, by rw [h]; decide +kernel⟩

theorem statement_head {cs : List Clause} {t : Str} (h : Statement re lex cs t) : ∃ k s, t = k ++ ' ' :: s ∧
    capitals k ∈ sqlParts ∧ capitals k ≠ "ASC".toList ∧ capitals k ≠ "DESC".toList := by
  cases h with
  | one h => exact written_head h
  | more h _ =>
    obtain ⟨k, s, rfl, h'⟩ := written_head h
    exact ⟨k, s ++ ' ' :: _, by rw [List.append_assoc]; rfl, h'⟩

theorem statement_next (hre : SaneRe re) (hl : Sane lex) {cs : List Clause} {t : Str} (h : Statement re lex cs t) : Next re lex (' ' :: t) := by
  obtain ⟨k, s, rfl, hk, _⟩ := statement_head h
  exact next_key hre hl hk (Or.inr ⟨_, rfl⟩)

/-- A clause is read. -/
theorem leads_clause (hre : SaneRe re) (hl : Sane lex) {prev : Option Char} {c : Clause} {t tail : Str} (p : Parsed)
    (h : c.Written re lex t) (hp : Fresh re prev) (hn : Next re lex tail) (ho : tail = [] ∨ ∀ b, c ≠ .orderBy b none) :
    ∃ p', Leads lex p (toks re prev (t ++ tail)) p' (rest re tail) ∧ view p' = c.apply (view p) := by
  cases h with
  | select h1 h2 => exact ⟨_, leads_select hre hl p h1 h2 hp hn, by simp [view, Clause.apply]⟩
  | distinct h1 h2 h3 => exact ⟨_, leads_distinct hre hl p h1 h2 h3 hp hn, by simp [view, Clause.apply]⟩
  | dataset h1 h2 h3 h4 => exact ⟨_, leads_dataset hre hl p h1 h2 h3 h4 hp hn, rfl⟩
  | subquery h1 h2 h3 h4 =>
    obtain ⟨sp, e, h⟩ := leads_subquery hre hl p h1 h2 h3 h4 hp hn.shape
    exact ⟨_, h, by simp [view, Clause.apply, e]⟩
  | where_ h1 h2 => exact ⟨_, leads_where hre hl p h1 h2 hp hn, rfl⟩
  | groupBy h1 h2 => exact ⟨_, leads_group hre hl p h1 h2 hp hn, rfl⟩
  | having h1 h2 => exact ⟨_, leads_having hre hl p h1 h2 hp hn, rfl⟩
  | orderBy h1 h2 =>
    rcases ho with rfl | ho
    · rw [List.append_nil]
      exact ⟨_, leads_order hre hl p h1 h2 hp, rfl⟩
    · exact absurd rfl (ho _)
  | descending h1 h2 h3 => exact ⟨_, leads_direction hre hl p h1 true h2 h3 hp hn, rfl⟩
  | ascending h1 h2 h3 => exact ⟨_, leads_direction hre hl p h1 false h2 h3 hp hn, rfl⟩
  | limit h1 => exact ⟨_, leads_limit hre hl p _ h1 hp hn, rfl⟩

/-- A statement is read. -/
theorem leads_statement (hre : SaneRe re) (hl : Sane lex) {cs : List Clause} {t : Str} (h : Statement re lex cs t) (ho : OrderLast cs) :
    ∀ (prev : Option Char) (p : Parsed), Fresh re prev →
      ∃ p', Leads lex p (toks re prev t) p' [] ∧ view p' = cs.foldl Clause.apply (view p) := by
  induction h with
  | one h =>
    intro prev p hp
    obtain ⟨p', h1, h2⟩ := leads_clause hre hl p h hp (Or.inl rfl) (Or.inl rfl)
    rw [List.append_nil] at h1
    exact ⟨p', h1, h2⟩
  | @more c t cs u h hs ih =>
    intro prev p hp
    have ho' : (∀ b, c ≠ .orderBy b none) ∧ OrderLast cs := by
      cases cs with
      | nil => cases hs
      | cons d cs => exact ho
    obtain ⟨p1, h1, h2⟩ := leads_clause hre hl p h hp (statement_next hre hl hs) (Or.inr ho'.1)
    obtain ⟨p2, h3, h4⟩ := ih ho'.2 (some ' ') p1 (fresh_space hre)
    exact ⟨p2, h1.trans h3, by rw [h4, h2]; rfl⟩

end Mabel.Sql
