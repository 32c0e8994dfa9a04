import Verif.Lemmas.SqlSelect

/-! # Lemmas on running SQL statements: WHERE, the text of SELECT, and the whole -/

namespace Mabel.SqlReader
open Mabel.Py Mabel.Dates Mabel.Tokens Mabel.Filters Mabel.Records Mabel.Blobs Mabel.Expression Mabel.Expression.Spec Mabel.Evaluator
  Mabel.Evaluator.Spec Mabel.SqlReader.Spec
open Mabel.Tokenizer (Re parseText)
open Mabel.Tokenizer.Spec (SaneRe capitals)

/-! ## WHERE -/

theorem evaluate_congr (lib : Lib) (lex : Lex) {r r' : Row} {t : Tree}
    (h : ∀ c ∈ comparisons t, ∀ k, c.1 = .var k ∨ c.2.2 = .var k → evalTerm lex r (.var k) = evalTerm lex r' (.var k)) :
    Expression.evaluate lib lex r t = Expression.evaluate lib lex r' t := by
  have ht : ∀ u : Term, (∀ k, u = .var k → evalTerm lex r (.var k) = evalTerm lex r' (.var k)) → evalTerm lex r u = evalTerm lex r' u := by
    intro u hu
    cases u with
    | var k => exact hu k rfl
    | _ => rfl
  induction t with
  | cmp l op rt =>
    rw [Expression.evaluate, Expression.evaluate, ht l (fun k e => h (l, op, rt) (by simp [comparisons]) k (Or.inl e)),
      ht rt (fun k e => h (l, op, rt) (by simp [comparisons]) k (Or.inr e))]
  | not t ih => rw [Expression.evaluate, Expression.evaluate, ih h]
  | and a b iha ihb =>
    rw [Expression.evaluate, Expression.evaluate, iha (fun c hc => h c (List.mem_append_left _ hc)), ihb (fun c hc => h c (List.mem_append_right _ hc))]
  | or a b iha ihb =>
    rw [Expression.evaluate, Expression.evaluate, iha (fun c hc => h c (List.mem_append_left _ hc)), ihb (fun c hc => h c (List.mem_append_right _ hc))]

theorem evalTerm_agree (lex : Lex) {r r' : Row} {k s : Str} (hk : Names k s)
    (h : Row.lookup r s = Row.lookup r' s ∨ Row.lookup r s = some ((Row.lookup r' s).getD (.one .none))) :
    evalTerm lex r (.var k) = evalTerm lex r' (.var k) := by
  obtain ⟨h1, _, h3, _⟩ := bareName_names hk
  rw [evalTerm, evalTerm, if_neg h3, if_neg h3, h1]
  rcases h with h | h
  · rw [h]
  · rw [h]
    cases Row.lookup r' s <;> rfl

/-- Conditions do not see the values of the items, unless they have the names of fields. -/
theorem evaluate_aug (lib : Lib) (lex : Lex) {F : Funs} {ss : List Sel} {rows : List Row} (h : Selectable ss rows) (hg : GoodArgs ss) {t : Tree}
    (hw : WellNamed t) (hm : ∀ k, Mentions t k → ¬ Hidden ss k) (r : Row) :
    Expression.evaluate lib lex (aug F ss r) t = Expression.evaluate lib lex r t := by
  refine evaluate_congr lib lex ?_
  intro c hc k hk
  obtain ⟨s, hs⟩ : ∃ s, Names k s := by
    rcases hk with hk | hk
    · exact (hw c hc).1 k hk
    · exact (hw c hc).2 k hk
  refine evalTerm_agree lex hs ?_
  have h12 := hm s ⟨c, hc, k, hk, hs⟩
  have h1 : s ≠ "*".toList := fun e => h12 (Or.inl e)
  have h2 : ∀ x ∈ ss, ¬ Shadows s x := fun x hx e => h12 (Or.inr ⟨x, hx, e⟩)
  by_cases hp : s ∈ ss.map putName
  · obtain ⟨x, hx, e⟩ := List.mem_map.1 hp
    right
    rw [← e, aug_put h hg r hx]
    have hsh := h2 x hx
    cases x with
    | call f args a => exact absurd e hsh
    | leaf l a =>
      cases l with
      | field n => rfl
      | _ => exact absurd e hsh
  · exact Or.inl (aug_other r h1 hp)

theorem written_bare {lv : Level} {t : Tree} {ts : List Str} (h : Written lv t ts) : ∀ c ∈ comparisons t, c.1 ≠ .bareNot ∧ c.2.2 ≠ .bareNot := by
  induction h with
  | cmp ha _ hb =>
    intro c hc
    rw [comparisons, List.mem_singleton] at hc
    subst hc
    constructor
    · cases ha with
      | plain hp => cases hp <;> exact fun e => by cases e
      | call _ _ => exact fun e => by cases e
    · cases hb with
      | plain hp => cases hp <;> exact fun e => by cases e
      | list _ => exact fun e => by cases e
  | not _ ih => exact ih
  | paren _ ih => exact ih
  | oneCond _ ih => exact ih
  | oneAnd _ ih => exact ih
  | and _ _ ih1 ih2 =>
    intro c hc
    rcases List.mem_append.1 hc with hc | hc
    · exact ih1 c hc
    · exact ih2 c hc
  | or _ _ ih1 ih2 =>
    intro c hc
    rcases List.mem_append.1 hc with hc | hc
    · exact ih1 c hc
    · exact ih2 c hc

theorem toDnf_ok (lib : Lib) {t : Tree} (h : ∀ c ∈ comparisons t, c.1 ≠ .bareNot ∧ c.2.2 ≠ .bareNot) : ∃ p, toDnf lib t = .ok p := by
  have ht : ∀ u : Term, u ≠ .bareNot → ∃ d, termDnf lib u = .ok d := by
    intro u hu
    cases u <;> first | exact absurd rfl hu | exact ⟨_, rfl⟩
  induction t with
  | cmp l op rt =>
    obtain ⟨h1, h2⟩ := h (l, op, rt) (by simp [comparisons])
    obtain ⟨x, hx⟩ := ht l h1
    obtain ⟨y, hy⟩ := ht rt h2
    rw [toDnf, hx, hy]
    cases x <;> exact ⟨_, rfl⟩
  | not t ih =>
    obtain ⟨p, hp⟩ := ih h
    rw [toDnf, hp]
    exact ⟨_, rfl⟩
  | and a b iha ihb =>
    obtain ⟨p, hp⟩ := iha (fun c hc => h c (List.mem_append_left _ hc))
    obtain ⟨q, hq⟩ := ihb (fun c hc => h c (List.mem_append_right _ hc))
    rw [toDnf, hp, hq]
    exact ⟨_, rfl⟩
  | or a b iha ihb =>
    obtain ⟨p, hp⟩ := iha (fun c hc => h c (List.mem_append_left _ hc))
    obtain ⟨q, hq⟩ := ihb (fun c hc => h c (List.mem_append_right _ hc))
    rw [toDnf, hp, hq]
    exact ⟨_, rfl⟩

/-! ## Blobs -/

theorem mapItems_ok {α β : Type} {f : α → Except Err β} {a : α → β} {l : List α} (h : ∀ x ∈ l, f x = .ok (a x)) :
    mapItems f none l = Gen.of (l.map a) := by
  induction l with
  | nil => rfl
  | cons x l ih =>
    rw [mapItems, h x (List.mem_cons_self ..), ih (fun y hy => h y (List.mem_cons_of_mem _ hy))]
    rfl

theorem filterItems_ok {α : Type} {p : α → Except Err Bool} {c : α → Bool} {l : List α} (h : ∀ x ∈ l, p x = .ok (c x)) :
    filterItems p none l = Gen.of (l.filter c) := by
  induction l with
  | nil => rfl
  | cons x l ih =>
    rw [filterItems, h x (List.mem_cons_self ..), ih (fun y hy => h y (List.mem_cons_of_mem _ hy))]
    cases hc : c x with
    | true => rw [List.filter_cons_of_pos hc]; rfl
    | false => rw [List.filter_cons_of_neg (by rw [hc]; decide)]

theorem readBlob_ok {columns : Row → Except Err Row} {filters : Row → Except Err Bool} {a : Row → Row} {c : Row → Bool} {l : List Row}
    (h1 : ∀ r ∈ l, columns r = .ok (a r)) (h2 : ∀ r ∈ l, filters (a r) = .ok (c r)) :
    readBlob columns filters l = (l.filter c).map a := by
  unfold readBlob Gen.map Gen.filter Gen.of
  simp only
  rw [mapItems_ok h1]
  unfold Gen.of
  simp only
  have : ∀ x ∈ l.map a, filters x = .ok ((filters x).toOption.getD false) := by
    intro x hx
    obtain ⟨r, hr, rfl⟩ := List.mem_map.1 hx
    rw [h2 r hr]
    rfl
  rw [filterItems_ok this]
  show List.filter _ _ = _
  rw [List.filter_map]
  congr 1
  refine List.filter_congr (fun r hr => ?_)
  rw [Function.comp_apply, h2 r hr]
  rfl

theorem readBlobs_ok {columns : Row → Except Err Row} {filters : Row → Except Err Bool} {a : Row → Row} {c : Row → Bool} {bs : List (List Row)}
    (h1 : ∀ r ∈ bs.flatten, columns r = .ok (a r)) (h2 : ∀ r ∈ bs.flatten, filters (a r) = .ok (c r)) :
    bs.flatMap (readBlob columns filters) = (bs.flatten.filter c).map a := by
  induction bs with
  | nil => rfl
  | cons b bs ih =>
    rw [List.flatten_cons] at h1 h2
    rw [List.flatMap_cons, List.flatten_cons, List.filter_append, List.map_append,
      ih (fun r hr => h1 r (List.mem_append_right _ hr)) (fun r hr => h2 r (List.mem_append_right _ hr)),
      readBlob_ok (fun r hr => h1 r (List.mem_append_left _ hr)) (fun r hr => h2 r (List.mem_append_left _ hr))]

theorem put_ne {β : Type} (d : List (Str × β)) (k : Str) (v : β) : put d k v ≠ [] := by
  cases d with
  | nil => simp [put]
  | cons kv d =>
    rw [put]
    split <;> simp

theorem fill_ne (F : Funs) (lex : Lex) (r : Row) : ∀ (ts : List Tok) (b x : Row), (fill F lex r b ts).1 = .ok x →
    b ≠ [] ∨ ts ≠ [] → x ≠ []
  | [], b, x, h, hne => by
    rw [fill] at h
    injection h with h
    rw [← h]
    exact hne.resolve_right (by simp)
  | t :: ts, b, x, h, _ => by
    rw [fill] at h
    split at h
    · cases h
    · rename_i y t' _
      exact fill_ne F lex r ts _ x h (Or.inl (put_ne _ _ _))

/-- A record with computed columns is not empty. -/
theorem call_ne {F : Funs} {lex : Lex} {ts : List Tok} (hne : ts ≠ []) {r x : Row} (h : (call F lex ts r).1 = .ok x) : x ≠ [] :=
  fill_ne F lex r ts _ x h (Or.inr hne)

theorem readerColumns_ne {env : Env} {ts : List Tok} (hne : ts ≠ []) {r x : Row} (h : readerColumns env (some ts) r = .ok x) :
    x ≠ [] := call_ne hne h

/-- Nothing is dropped when no record is empty. -/
theorem readBlob_kept {columns : Row → Except Err Row} (h : ∀ r x, columns r = .ok x → x ≠ []) (rows : List Row) :
    readBlob columns (fun r => .ok (decide (r ≠ []))) rows = readBlob columns (fun _ => .ok true) rows := by
  unfold readBlob Gen.map Gen.filter Gen.of
  simp only
  generalize none = e
  induction rows with
  | nil => rfl
  | cons r rows ih =>
    rw [mapItems]
    cases hc : columns r with
    | error e => rfl
    | ok x =>
      simp only
      rw [filterItems, filterItems]
      simp only [decide_eq_true (h r x hc)]
      rw [ih]

/-! ## The text of the select list -/

theorem laid_append {re : Re} {ps qs : List Piece} {t u : Str} (h1 : Laid re ps t) (h2 : Laid re qs u) : Laid re (ps ++ qs) (t ++ u) := by
  induction h1 with
  | nil => exact h2
  | @sym c ps a b t hc ha hb _ ih =>
    have := Laid.sym hc ha hb ih
    rwa [← List.append_assoc] at this
  | @as s ps a b t hs ha hb na nb _ ih =>
    have := Laid.as hs ha hb na nb ih
    rwa [← List.append_assoc] at this
  | @word s ps a b t hs ha hb _ ih =>
    have := Laid.word hs ha hb ih
    rwa [← List.append_assoc] at this

theorem more_append (a b : List Sel) : morePieces (a ++ b) = morePieces a ++ morePieces b := by
  induction a with
  | nil => rw [morePieces]; rfl
  | cons s a ih => rw [List.cons_append, morePieces, morePieces, ih]; simp

theorem piecesOf_star {ss : List Sel} (h : ss ≠ []) : piecesOf (ss ++ [star]) = piecesOf ss ++ [.sym ',', .word "*".toList] := by
  cases ss with
  | nil => exact absurd rfl h
  | cons s ss =>
    rw [List.cons_append, piecesOf, piecesOf, more_append, ← List.append_assoc]
    congr 1

theorem quiet_star {re : Re} : Quiet re "*".toList := by
  refine ⟨⟨'*', [], rfl, by decide⟩, ⟨'*', rfl, by decide⟩, by decide, ?_⟩
  intro a x y b e
  have := congrArg List.length e
  simp at this
  omega

theorem laid_star {re : Re} : Laid re [.sym ',', .word "*".toList] ", *".toList :=
  Laid.sym (a := []) (b := [' ']) (Or.inr (Or.inr rfl)) (fun _ h => by cases h) (by intro c hc; simp at hc; subst hc; decide)
    (Laid.word (a := []) (b := []) quiet_star (fun _ h => by cases h) (fun _ h => by cases h) Laid.nil)

theorem good_star : ReadableArgs [star] := by
  rw [ReadableArgs, ReadableArgs]
  unfold star
  rw [Sel.Readable]
  exact ⟨⟨trivial, fun _ _ e => by cases e⟩, trivial⟩

theorem readable_append {xs ys : List Sel} (h1 : ReadableArgs xs) (h2 : ReadableArgs ys) : ReadableArgs (xs ++ ys) := by
  induction xs with
  | nil => exact h2
  | cons x xs ih =>
    rw [ReadableArgs] at h1
    rw [List.cons_append, ReadableArgs]
    exact ⟨h1.1, ih h1.2⟩

theorem init_star {re : Re} {lex : Lex} (hre : SaneRe re) (hl : Sane lex) : init re lex "*".toList = .ok [Sel.tok star] := by
  refine init_sels hre hl (ss := [star]) good_star ?_
  show Laid re [.word "*".toList] "*".toList
  exact Laid.word (a := []) (b := []) (t := []) quiet_star (fun _ h => by cases h) (fun _ h => by cases h) Laid.nil

/-- The reader is given the select list and a star. -/
theorem init_actual {re : Re} {lex : Lex} (hre : SaneRe re) (hl : Sane lex) {ss : List Sel} {b : Str} (hg : ReadableArgs ss)
    (hb : Laid re (piecesOf ss) b) (hne : ss ≠ []) (hs : ∀ s ∈ ss, ∀ a, s ≠ .leaf .star a) :
    b ≠ "*".toList ∧ actualSelect b ≠ "*".toList ∧ init re lex (actualSelect b) = .ok ((ss ++ [star]).map Sel.tok) := by
  have hb0 : b ≠ "*".toList := by
    rintro rfl
    have h1 := init_sels hre hl hg hb
    rw [init_star hre hl] at h1
    injection h1 with h1
    have h2 := any_star ss
    rw [← h1] at h2
    have h3 : ss.any Sel.isStar = true := by rw [← h2]; rfl
    obtain ⟨s, hm, hst⟩ := List.any_eq_true.1 h3
    cases s with
    | call f args a => cases hst
    | leaf l a => cases l <;> first | exact hs _ hm a rfl | cases hst
  have ha : actualSelect b = b ++ ", *".toList := by unfold actualSelect; rw [if_neg hb0]
  refine ⟨hb0, ?_, ?_⟩
  · rw [ha]
    intro e
    have := congrArg List.length e
    simp at this
  · rw [ha]
    refine init_sels hre hl (readable_append hg good_star) ?_
    rw [piecesOf_star hne]
    exact laid_append hb laid_star

/-! ## Running -/

theorem parse_mono {env : Env} {n k : Nat} {raw : Str} {r : Except Err Sql.Parsed} (h : Sql.parse env.re env.lex env.ch n raw = some r) :
    Sql.parse env.re env.lex env.ch (n + k) raw = some r := by
  unfold Sql.parse at h ⊢
  cases hr : Sql.run env.lex n {} (Sql.parts env.re (Tokenizer.clean (Sql.removeComments raw))) with
  | none => rw [hr] at h; cases h
  | some x =>
    rw [Sql.run_mono n k _ _ x hr]
    rw [hr] at h
    exact h

theorem sqlReader_mono {env : Env} {k : Nat} : ∀ {n : Nat} {raw : Str} {r : Except Err (Gen Row)}, sqlReader env n raw = some r →
    sqlReader env (n + k) raw = some r
  | 0, _, _, h => by cases h
  | n + 1, raw, r, h => by
    rw [show n + 1 + k = (n + k) + 1 by omega]
    rw [sqlReader] at h ⊢
    cases hp : Sql.parse env.re env.lex env.ch n raw with
    | none => rw [hp] at h; cases h
    | some x =>
      rw [parse_mono hp]
      rw [hp] at h
      cases x with
      | error e => exact h
      | ok p =>
        simp only at h ⊢
        cases hi : init env.re env.lex (p.select.getD []) with
        | error e => rw [hi] at h; exact h
        | ok ts =>
          rw [hi] at h
          simp only at h ⊢
          cases hs : p.source with
          | none => rw [hs] at h; exact h
          | some s =>
            rw [hs] at h
            cases s with
            | dataset d => exact h
            | subquery ps =>
              simp only at h ⊢
              cases hq : sqlReader env n ps.flatten with
              | none => rw [hq] at h; cases h
              | some y =>
                rw [sqlReader_mono hq]
                rw [hq] at h
                exact h

theorem sqlReader_unique {env : Env} {n m : Nat} {raw : Str} {r s : Except Err (Gen Row)} (h1 : sqlReader env n raw = some r)
    (h2 : sqlReader env m raw = some s) : r = s := by
  have a := sqlReader_mono (k := m) h1
  have b := sqlReader_mono (k := n) h2
  rw [Nat.add_comm, b] at a
  injection a with a
  exact a.symm

/-- A statement is answered in one way. -/
theorem answers_unique {env : Env} {raw : Str} {g g' : Gen Row} (h1 : Answers env raw g) (h2 : Answers env raw g') : g = g' := by
  obtain ⟨n, h1⟩ := h1
  obtain ⟨m, h2⟩ := h2
  have := sqlReader_unique h1 h2
  injection this

theorem answers_refuses {env : Env} {raw : Str} {g : Gen Row} {e : Err} (h1 : Answers env raw g) (h2 : Refuses env raw e) : False := by
  obtain ⟨n, h1⟩ := h1
  obtain ⟨m, h2⟩ := h2
  have := sqlReader_unique h1 h2
  cases this

/-- A statement about a dataset. -/
theorem run_dataset {env : Env} {raw : Str} {p : Sql.Parsed} (hp : Sql.Spec.Parses env.re env.lex env.ch raw (.ok p)) {b d : Str}
    (hb : p.select = some b) (hd : p.source = some (.dataset d)) {ts : List Tok} (hi : init env.re env.lex b = .ok ts) :
    ∃ n, sqlReader env n raw = some ((openReader env (actualSelect b) d p.whereExpr).bind (finishQuery env p ts)) := by
  obtain ⟨n, hp⟩ := hp
  refine ⟨n + 1, ?_⟩
  rw [sqlReader, hp]
  simp only [hb, Option.getD_some, hi, hd]

/-- A statement about the result of another. -/
theorem run_subquery {env : Env} {raw : Str} {p : Sql.Parsed} (hp : Sql.Spec.Parses env.re env.lex env.ch raw (.ok p)) {b : Str} {ps : List Str}
    (hb : p.select = some b) (hd : p.source = some (.subquery ps)) {ts : List Tok} (hi : init env.re env.lex b = .ok ts) {g : Gen Row}
    (hg : Answers env ps.flatten g) : ∃ n, sqlReader env n raw = some (finishQuery env p ts g) := by
  obtain ⟨n, hp⟩ := hp
  obtain ⟨m, hg⟩ := hg
  refine ⟨n + m + 1, ?_⟩
  rw [sqlReader, parse_mono hp]
  simp only [hb, Option.getD_some, hi, hd]
  rw [show n + m = m + n by omega, sqlReader_mono hg]
  rfl

theorem no_aggregator {ss : List Sel} (hg : GoodArgs ss) : (ss.map Sel.tok).any (fun t => t.type = .aggregator) = false := by
  rw [List.any_eq_false]
  intro t ht
  obtain ⟨s, hs, rfl⟩ := List.mem_map.1 ht
  cases s with
  | leaf l a =>
    rw [Sel.tok]
    have := (leafLabel_ne l).2.1
    simp [Tok.type, this]
  | call f args a =>
    have := good_mem hg _ hs
    rw [Sel.Good] at this
    rw [Sel.tok]
    simp [Tok.type, callLabel, show capitals f ∈ functions from this.1]

/-- Without GROUP BY and HAVING. -/
theorem finish_plain {env : Env} {p : Sql.Parsed} {ss : List Sel} {g : Gen Row} (hgood : GoodArgs ss) (hg : p.groupBy = none) (hh : p.having = none) :
    finishQuery env p (ss.map Sel.tok) g = .ok (limitStage p.limit (orderStage p.orderBy p.descending p.limit (distinctStage env p.distinct
      (selectStage (getFields (ss.map Sel.tok)) (renameStage (ss.map Sel.tok) g))))) := by
  have h1 : groupStage env p (ss.map Sel.tok) g = .ok g := by
    unfold groupStage
    rw [hg, no_aggregator hgood]
    rfl
  have h2 : havingStage env p.having g = .ok g := by
    unfold havingStage
    rw [hh]
    rfl
  unfold finishQuery
  rw [h1]
  show (do let g ← havingStage env p.having g; _) = _
  rw [h2]
  rfl

theorem renameStage_of {ss : List Sel} (h : Named ss) (hg : ReadableArgs ss) (l : List Row) :
    renameStage (ss.map Sel.tok) (Gen.of l) = Gen.of (l.map (performRenames (asNames ss))) := by
  unfold renameStage
  rw [renames_sels hg h.once]
  split
  · next e =>
    rw [e]
    have : performRenames [] = id := by
      funext r
      unfold performRenames
      generalize r.map (·.1) = ks
      induction ks with
      | nil => rfl
      | cons k ks ih => exact ih
    rw [this, List.map_id]
  · rfl

theorem selectStage_of {ss : List Sel} (hg : ReadableArgs ss)
    (hplain : ∀ s ∈ ss, ∀ a, s ≠ .leaf .star a ∧ (∀ w, s ≠ .leaf (.null w) a) ∧ ∀ b w, s ≠ .leaf (.bool b w) a) (hstar : "*".toList ∉ ss.map Sel.name) (l : List Row) :
    selectStage (getFields (ss.map Sel.tok)) (Gen.of l) = Gen.of (l.map (selectRow (ss.map Sel.name))) := by
  unfold selectStage
  rw [getFields_sels hg hplain, if_neg]
  · rfl
  · intro e
    exact hstar (by rw [e]; exact List.mem_singleton.2 rfl)

theorem star_not_name {ss : List Sel} {rows : List Row} (h : Selectable ss rows) (hg : GoodArgs ss) : "*".toList ∉ ss.map Sel.name := by
  intro hm
  obtain ⟨s, hs, e⟩ := List.mem_map.1 hm
  exact name_ne_star (readable_good _ (good_mem hg s hs)) (fun a => (plain_of h hs a).1) e

theorem asks_parses {env : Env} (hre : SaneRe env.re) (hl : Sane env.lex) (hch : Sql.Spec.SaneChars env.ch) {raw : Str} {q : Sql.Spec.Query}
    (h : Asks env raw q) (hsel : q.select ≠ none) (hsrc : q.source ≠ none)
    (hname : ∀ d, q.source = some (.dataset d) → Sql.Spec.GoodName env.ch d) :
    ∃ p, Sql.Spec.Parses env.re env.lex env.ch raw (.ok p) ∧ Sql.Spec.view p = q := by
  obtain ⟨cs, h1, h2, rfl⟩ := h
  exact Sql.C48_parse_partial hre hl hch h1 h2 rfl hsel hsrc hname

theorem source_dataset {p : Sql.Parsed} {d : Str} (h : (Sql.Spec.view p).source = some (.dataset d)) : p.source = some (.dataset d) := by
  unfold Sql.Spec.view at h
  simp only at h
  cases hs : p.source with
  | none => rw [hs] at h; cases h
  | some s =>
    rw [hs] at h
    cases s with
    | dataset x => simpa using h
    | subquery ps => simp at h

theorem source_statement {p : Sql.Parsed} {s : Str} (h : (Sql.Spec.view p).source = some (.statement s)) :
    ∃ ps, p.source = some (.subquery ps) ∧ ps.flatten = s := by
  unfold Sql.Spec.view at h
  simp only at h
  cases hs : p.source with
  | none => rw [hs] at h; cases h
  | some x =>
    rw [hs] at h
    cases x with
    | dataset x => simp at h
    | subquery ps => exact ⟨ps, rfl, by simpa using h⟩

theorem tail_tame (env : Env) {p : Sql.Parsed} {rows : List Row} (h : Tame env (Sql.Spec.view p) rows) :
    ∃ res, limitStage p.limit (orderStage p.orderBy p.descending p.limit (distinctStage env p.distinct (Gen.of rows))) = Gen.of res ∧
      Result (Sql.Spec.view p) rows res := by
  refine tail_result env rows h.separated ?_ h.positive
  intro c hc
  obtain ⟨h1, h2⟩ := h.comparable c hc
  refine ⟨h1, h2, fun hn => ?_⟩
  have h3 := h.few (by show p.orderBy ≠ none; rw [hc]; simp) hn
  unfold kept
  split
  · exact Nat.le_trans (keepFirst_sublist rows).length_le h3
  · exact h3

/-- What the reader gives: the records that meet the condition once they are as `a` makes them. -/
theorem open_raw {env : Env} (hre : SaneRe env.re) (hl : Sane env.lex) {bs : List (List Row)} {d : Str}
    (hbs : env.blobs d = .ok bs) {w : Option Str} {cond : Row → Bool} {select : Str}
    {tokens : Option (List Tok)} (ht : readerTokens env select = .ok tokens)
    {a : Row → Row} (ha : ∀ r ∈ bs.flatten, readerColumns env tokens r = .ok (a r))
    (hnone : w = none → ∀ r ∈ bs.flatten, cond r = decide (a r ≠ []))
    (hsome : ∀ text, w = some text → ∃ ls t, Tokenizer.Spec.Laid env.re ls text ∧ (∀ l ∈ ls, l.Simple env.re) ∧
      Written .or t (ls.map Tokenizer.Spec.Lexeme.token) ∧ ∀ r ∈ bs.flatten, Expression.evaluate env.lib env.lex (a r) t = .ok (cond r)) :
    openReader env select d w = .ok (Gen.of ((bs.flatten.filter cond).map a)) := by
  unfold openReader
  cases w with
  | none =>
    show (readerTokens env select).bind _ = _
    rw [ht]
    show Except.ok (readBlobs env none (readerColumns env tokens) d) = _
    unfold readBlobs
    rw [hbs]
    simp only
    rw [readBlobs_ok (c := cond) ha (fun r hr => by rw [hnone rfl r hr])]
  | some text =>
    obtain ⟨ls, t, h1, h2, h3, h6⟩ := hsome text rfl
    obtain ⟨dnf, hdnf⟩ := toDnf_ok env.lib (written_bare h3)
    unfold readerTree
    simp only
    rw [Tokenizer.C64_expression_partial hre hl ls text h1 h2 t h3]
    show (readerTokens env select).bind _ = _
    rw [ht]
    show Except.ok (readBlobs env (some t) (readerColumns env tokens) d) = _
    unfold readBlobs
    rw [hbs]
    simp only
    rw [hdnf]
    simp only
    rw [readBlobs_ok ha h6]

/-- What the reader gives: the records that meet the condition, as `a` makes them. -/
theorem open_where {env : Env} (hre : SaneRe env.re) (hl : Sane env.lex) {bs : List (List Row)} {d : Str}
    (hbs : env.blobs d = .ok bs) {w : Option Str} {cond : Row → Bool} {hidden : Str → Prop} (hw : Where env hidden bs.flatten w cond) {select : Str}
    {tokens : Option (List Tok)} (ht : readerTokens env select = .ok tokens)
    {a : Row → Row} (ha : ∀ r ∈ bs.flatten, readerColumns env tokens r = .ok (a r))
    (hne : w = none → ∀ r ∈ bs.flatten, a r ≠ [])
    (hsame : ∀ t, WellNamed t → (∀ k, Mentions t k → ¬ hidden k) → ∀ r ∈ bs.flatten,
      Expression.evaluate env.lib env.lex (a r) t = Expression.evaluate env.lib env.lex r t) :
    openReader env select d w = .ok (Gen.of ((bs.flatten.filter cond).map a)) := by
  refine open_raw hre hl hbs ht ha ?_ ?_
  · rintro rfl r hr
    rw [decide_eq_true (hne rfl r hr)]
    exact hw r hr
  · rintro text rfl
    obtain ⟨ls, t, h1, h2, h3, h4, h5, h6⟩ := hw
    exact ⟨ls, t, h1, h2, h3, fun r hr => (hsame t h4 h5 r hr).trans (h6 r hr)⟩

end Mabel.SqlReader
