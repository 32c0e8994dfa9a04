import Verif.Lemmas.SqlRun

/-!
# C49: the results of SQL statements

`Asks` says what a statement asks for, however it is written (C48); `Result` says what DISTINCT, ORDER BY and LIMIT make of the
selected columns.
-/

namespace Mabel.SqlReader
open Mabel.Py Mabel.Dates Mabel.Tokens Mabel.Filters Mabel.Records Mabel.Blobs Mabel.Expression Mabel.Expression.Spec Mabel.Evaluator
  Mabel.Evaluator.Spec Mabel.SqlReader.Spec
open Mabel.Sql.Spec (Query Clause Statement OrderLast SaneChars GoodName Parses view)
open Mabel.Tokenizer (Re parseText asciiRe asciiRe_sane)
open Mabel.Tokenizer.Spec (SaneRe capitals)
open Mabel.DictSet (keyLe directed)

variable {env : Env}

/-- **C49**: SELECT with computed columns, FROM a dataset, WHERE, DISTINCT, ORDER BY and LIMIT, from the text of the statement:
the records of the dataset that meet the condition, in their order, with the columns asked for; then those that are first of their
kind, ordered, as many as asked for.

Missing for the full property: select lists that are not `Selectable`, conditions on fields that an item shadows, functions that
raise for a record (also one that does not meet the condition), records that are not `Tame`; see the `_fails` theorems. -/
theorem C49_select_partial (hre : SaneRe env.re) (hl : Sane env.lex) (hch : SaneChars env.ch) {raw : Str} {q : Query} (hq : Asks env raw q)
    {b d : Str} (hsel : q.select = some b) (hsrc : q.source = some (.dataset d)) (hd : GoodName env.ch d) {bs : List (List Row)}
    (hbs : env.blobs d = .ok bs) (hgb : q.groupBy = none) (hhv : q.having = none)
    {ss : List Sel} (hb : Laid env.re (piecesOf ss) b) (hg : GoodArgs ss) (hs : Selectable ss bs.flatten)
    {out : Row → Row} (hout : ∀ r ∈ bs.flatten, columns env.funs r ss = .ok (out r))
    {cond : Row → Bool} (hw : Where env (Hidden ss) bs.flatten q.whereExpr cond) (ht : Tame env q ((bs.flatten.filter cond).map out)) :
    ∃ g, Answers env raw g ∧ g.raised = none ∧ Result q ((bs.flatten.filter cond).map out) g.items := by
  obtain ⟨p, hp, rfl⟩ := asks_parses hre hl hch hq (by rw [hsel]; simp) (by rw [hsrc]; simp)
    (by intro d' h; rw [hsrc] at h; injection h with h; injection h with h; exact h ▸ hd)
  have hst : ∀ s ∈ ss, ∀ a, s ≠ .leaf .star a := fun s hm a => (plain_of hs hm a).1
  obtain ⟨_, h2, h3⟩ := init_actual hre hl (readables_good _ hg) hb hs.ne hst
  obtain ⟨n, hn⟩ := run_dataset hp hsel (source_dataset hsrc) (init_sels hre hl (readables_good _ hg) hb)
  have ho : openReader env (actualSelect b) d p.whereExpr = .ok (Gen.of ((bs.flatten.filter cond).map (aug env.funs ss))) :=
    open_where hre hl hbs hw (tokens := some ((ss ++ [star]).map Sel.tok)) (by unfold readerTokens; rw [if_neg h2, h3]; rfl)
      (fun r hr => call_aug hl hg (hout r hr)) (fun _ r hr => call_ne (by simp) (call_aug hl hg (hout r hr))) (fun t h4 h5 r _ => evaluate_aug env.lib env.lex hs hg h4 h5 r)
  have hsr : selectStage (getFields (ss.map Sel.tok)) (renameStage (ss.map Sel.tok) (Gen.of ((bs.flatten.filter cond).map (aug env.funs ss)))) =
      Gen.of ((bs.flatten.filter cond).map out) := by
    rw [renameStage_of hs.toNamed (readables_good _ hg), selectStage_of (readables_good _ hg) (fun s h => plain_of hs h) (star_not_name hs hg), List.map_map, List.map_map]
    congr 1
    refine List.map_congr_left (fun r hr => ?_)
    have hr := (List.mem_filter.1 hr).1
    exact select_aug hs hg hr (hout r hr)
  obtain ⟨res, h5, h6⟩ := tail_tame env ht
  refine ⟨Gen.of res, ⟨n, ?_⟩, rfl, h6⟩
  rw [hn, ho]
  show some (finishQuery env p (ss.map Sel.tok) _) = _
  rw [finish_plain hg hgb hhv, hsr, h5]

theorem good_stars : GoodArgs [star] := by
  rw [GoodArgs, GoodArgs]
  unfold star
  rw [Sel.Good]
  exact ⟨⟨trivial, fun _ _ e => by cases e⟩, trivial⟩

/-- `SELECT *` gives the records as they are.

Missing for the full property: without a condition, records without columns (`C49_star_empty_fails`). -/
theorem C49_star_partial (hre : SaneRe env.re) (hl : Sane env.lex) (hch : SaneChars env.ch) {raw : Str} {q : Query} (hq : Asks env raw q)
    {d : Str} (hsel : q.select = some "*".toList) (hsrc : q.source = some (.dataset d)) (hd : GoodName env.ch d) {bs : List (List Row)}
    (hbs : env.blobs d = .ok bs) (hgb : q.groupBy = none) (hhv : q.having = none)
    (hfull : q.whereExpr = none → ∀ r ∈ bs.flatten, r ≠ [])
    {cond : Row → Bool} (hw : Where env (fun _ => False) bs.flatten q.whereExpr cond) (ht : Tame env q (bs.flatten.filter cond)) :
    ∃ g, Answers env raw g ∧ g.raised = none ∧ Result q (bs.flatten.filter cond) g.items := by
  obtain ⟨p, hp, rfl⟩ := asks_parses hre hl hch hq (by rw [hsel]; simp) (by rw [hsrc]; simp)
    (by intro d' h; rw [hsrc] at h; injection h with h; injection h with h; exact h ▸ hd)
  obtain ⟨n, hn⟩ := run_dataset hp hsel (source_dataset hsrc) (init_star hre hl)
  have ho : openReader env (actualSelect "*".toList) d p.whereExpr = .ok (Gen.of ((bs.flatten.filter cond).map id)) :=
    open_where hre hl hbs hw (tokens := none) rfl (fun r _ => rfl) hfull (fun _ _ _ _ _ => rfl)
  obtain ⟨res, h5, h6⟩ := tail_tame env ht
  refine ⟨Gen.of res, ⟨n, ?_⟩, rfl, h6⟩
  rw [hn, ho, List.map_id]
  show some (finishQuery env p ([star].map Sel.tok) _) = _
  rw [finish_plain good_stars hgb hhv]
  exact congrArg (fun x => some (Except.ok x)) h5

/-! ## Every statement -/

theorem parses_unique {raw : Str} {r s : Except Err Sql.Parsed} (h1 : Parses env.re env.lex env.ch raw r)
    (h2 : Parses env.re env.lex env.ch raw s) : r = s := by
  obtain ⟨n, h1⟩ := h1
  obtain ⟨m, h2⟩ := h2
  have a := parse_mono (k := m) h1
  have b := parse_mono (k := n) h2
  rw [Nat.add_comm, b] at a
  injection a with a
  exact a.symm

/-- The last stages of any statement. -/
theorem answers_tail {raw : Str} {g : Gen Row} (h : Answers env raw g) {p : Sql.Parsed} (hp : Parses env.re env.lex env.ch raw (.ok p)) :
    ∃ g3 : Gen Row, g = limitStage p.limit (orderStage p.orderBy p.descending p.limit (distinctStage env p.distinct g3)) := by
  have hf : ∀ ts g0, finishQuery env p ts g0 = .ok g →
      ∃ g3 : Gen Row, g = limitStage p.limit (orderStage p.orderBy p.descending p.limit (distinctStage env p.distinct g3)) := by
    intro ts g0 hf
    unfold finishQuery at hf
    cases h1 : groupStage env p ts g0 with
    | error e => rw [h1] at hf; cases hf
    | ok g1 =>
      rw [h1] at hf
      change (do let g ← havingStage env p.having g1; _) = _ at hf
      cases h2 : havingStage env p.having g1 with
      | error e => rw [h2] at hf; cases hf
      | ok g2 =>
        rw [h2] at hf
        injection hf with hf
        exact ⟨_, hf.symm⟩
  obtain ⟨n, h⟩ := h
  cases n with
  | zero => cases h
  | succ n =>
    rw [sqlReader] at h
    cases hq : Sql.parse env.re env.lex env.ch n raw with
    | none => rw [hq] at h; cases h
    | some x =>
      have := parses_unique hp ⟨n, hq⟩
      subst this
      rw [hq] at h
      simp only at h
      cases hi : init env.re env.lex (p.select.getD []) with
      | error e => rw [hi] at h; cases h
      | ok ts =>
        rw [hi] at h
        simp only at h
        cases hs : p.source with
        | none => rw [hs] at h; cases h
        | some s =>
          rw [hs] at h
          cases s with
          | dataset d =>
            simp only at h
            injection h with h
            cases ho : openReader env (actualSelect (p.select.getD [])) d p.whereExpr with
            | error e => rw [ho] at h; cases h
            | ok g0 => rw [ho] at h; exact hf ts g0 h
          | subquery ps =>
            simp only at h
            cases hr : sqlReader env n ps.flatten with
            | none => rw [hr] at h; cases h
            | some y =>
              rw [hr] at h
              injection h with h
              cases y with
              | error e => cases h
              | ok g0 => exact hf ts g0 h

theorem limitStage_sublist (limit : Option Int) (g : Gen Row) : (limitStage limit g).items.Sublist g.items := by
  unfold limitStage
  split
  · exact List.Sublist.refl _
  · next n _ =>
    simp only
    unfold DictSet.itake
    rw [DictSet.itakeFrom_eq]
    split
    · exact List.take_sublist _ _
    · exact List.Sublist.refl _

/-- **C49**: no statement gives more records than its LIMIT, if that is positive: whatever is selected, grouped, filtered or
ordered, and whatever raises. -/
theorem C49_limit {raw : Str} {g : Gen Row} (h : Answers env raw g) {p : Sql.Parsed} (hp : Parses env.re env.lex env.ch raw (.ok p))
    {n : Int} (hn : (view p).limit = some n) (hpos : 0 < n) : (g.items.length : Int) ≤ n := by
  obtain ⟨g3, rfl⟩ := answers_tail h hp
  have hn : p.limit = some n := hn
  obtain ⟨k, rfl⟩ := Int.eq_ofNat_of_zero_le (Int.le_of_lt hpos)
  unfold limitStage
  rw [hn, Option.filter_some, if_pos (by simp; omega)]
  simp only
  rw [Mabel.Props.C29_take_first_partial _ k (by omega), List.length_take]
  omega

theorem dedupeFrom_nodup {α κ : Type} [BEq κ] [LawfulBEq κ] (f : α → κ) (l : List α) : ∀ seen,
    (DictSet.dedupeFrom f seen l).Pairwise (fun a b => f a ≠ f b) ∧ ∀ x ∈ DictSet.dedupeFrom f seen l, f x ∉ seen := by
  induction l with
  | nil => intro seen; exact ⟨List.Pairwise.nil, fun x hx => by cases hx⟩
  | cons x l ih =>
    intro seen
    rw [DictSet.dedupeFrom]
    by_cases hx : f x ∈ seen
    · rw [if_pos (by simpa using hx)]
      exact ih seen
    · rw [if_neg (by simpa using hx)]
      obtain ⟨h1, h2⟩ := ih (f x :: seen)
      refine ⟨List.Pairwise.cons (fun b hb e => h2 b hb (e ▸ List.mem_cons_self ..)) h1, ?_⟩
      intro y hy
      rcases List.mem_cons.1 hy with rfl | hy
      · exact hx
      · exact fun hm => h2 y hy (List.mem_cons_of_mem _ hm)

theorem upTo_sublist {α : Type} (t : Int) (l : List α) : (upTo t l).Sublist l := by
  unfold upTo
  split <;> exact List.take_sublist _ _

theorem sorted_nodup {α : Type} (le : α → α → Bool) {l : List α} (h : l.Nodup) : (sorted le l).Nodup := (sorted_perm le l).nodup_iff.2 h

theorem fold_nodup {α : Type} (le : α → α → Bool) (take : Int) (l : List α) : ∀ cache, (cache ++ l).Nodup →
    (l.foldl (heldStep le take) cache).Nodup := by
  induction l with
  | nil => intro cache h; simpa using h
  | cons x l ih =>
    intro cache h
    rw [List.foldl_cons]
    refine ih _ ?_
    have h' : (cache ++ [x] ++ l).Nodup := by simpa using h
    unfold heldStep
    simp only
    split
    · have hs : (upTo take (sorted le (cache ++ [x]))).Sublist (sorted le (cache ++ [x])) := upTo_sublist _ _
      have h2 : (sorted le (cache ++ [x]) ++ l).Nodup := ((sorted_perm le (cache ++ [x])).append_right l).nodup_iff.2 h'
      exact h2.sublist (hs.append_right l)
    · exact h'

/-- **C49**: a statement with DISTINCT never gives the same record twice. -/
theorem C49_distinct {raw : Str} {g : Gen Row} (h : Answers env raw g) {p : Sql.Parsed} (hp : Parses env.re env.lex env.ch raw (.ok p))
    (hd : (view p).distinct = true) : g.items.Nodup := by
  obtain ⟨g3, rfl⟩ := answers_tail h hp
  have hd : p.distinct = true := hd
  refine (limitStage_sublist _ _).nodup ?_
  have h0 : (distinctStage env p.distinct g3).items.Nodup := by
    unfold distinctStage
    rw [if_pos hd]
    refine ((dedupeFrom_nodup (rowFingerprint env) g3.items []).1).imp ?_
    intro a b hab e
    exact hab (e ▸ rfl)
  generalize distinctStage env p.distinct g3 = g4 at h0
  unfold orderStage
  split
  · exact h0
  · split
    · exact List.nodup_nil
    · split
      · rename_i hr
        obtain ⟨cache, hcache, -, rfl⟩ := sortAndTake_inv hr
        refine (upTo_sublist _ _).nodup (sorted_nodup _ ?_)
        rcases hcache with rfl | rfl
        · exact h0
        · exact fold_nodup _ _ _ [] (by simpa using h0)
      · exact List.nodup_nil

/-- **C49**: the records of a statement with ORDER BY are in the order of that column. -/
theorem C49_sorted {raw : Str} {g : Gen Row} (h : Answers env raw g) {p : Sql.Parsed} (hp : Parses env.re env.lex env.ch raw (.ok p))
    {c : Str} (hc : (view p).orderBy = some c) (hne : c ≠ []) :
    g.items.Pairwise (fun a b => if (view p).descending then NotAfter c b a else NotAfter c a b) := by
  obtain ⟨g3, hg⟩ := answers_tail h hp
  have hc : p.orderBy = some c := hc
  rw [hg]
  refine (List.Pairwise.sublist (limitStage_sublist _ _)) ?_
  have key : ∀ R : Row → Row → Prop, (∀ cache : List Row, cache.Pairwise (fun a b => keysCompare c a b = true) →
      (sorted (orderLe c p.descending) cache).Pairwise R) →
      (orderStage p.orderBy p.descending p.limit (distinctStage env p.distinct g3)).items.Pairwise R := by
    intro R hR
    unfold orderStage
    rw [hc, Option.filter_some, if_pos (by simpa using hne)]
    simp only
    split
    · exact List.Pairwise.nil
    · split
      · rename_i hr
        obtain ⟨cache, -, hk, rfl⟩ := sortAndTake_inv hr
        exact List.Pairwise.sublist (upTo_sublist _ _) (hR cache hk)
      · exact List.Pairwise.nil
  exact key _ (fun cache hk => sorted_notAfter p.descending hk)

end Mabel.SqlReader
