import Verif.Props.SqlReader
import Verif.Lemmas.SqlGroup

/-!
# C49: GROUP BY and HAVING in SQL statements
-/

namespace Mabel.SqlReader
open Mabel.Py Mabel.Dates Mabel.Tokens Mabel.Filters Mabel.Records Mabel.Blobs Mabel.Expression Mabel.Expression.Spec Mabel.Evaluator
  Mabel.Evaluator.Spec Mabel.SqlReader.Spec
open Mabel.Sql.Spec (Query Clause Statement OrderLast SaneChars GoodName Parses view)
open Mabel.Tokenizer (Re parseText asciiRe asciiRe_sane)
open Mabel.Tokenizer.Spec (SaneRe capitals)
open Mabel.GroupBy (Func Cell aggKey dget groupText FewGroups extend)
open Mabel.GroupBy.Spec (nonNull groupOf Answer agree Faithful Fine)

variable {env : Env}

theorem groupList_mem {columns : List Str} {ss : List Sel} {aggs : List (Func × Str)} (h : GroupList columns ss aggs) : ∀ s ∈ ss,
    (∃ n as_, s = .leaf (.field n) as_ ∧ n ∈ columns) ∨ ∃ f c, Aggregation s f c ∧ (f, c) ∈ aggs := by
  induction h with
  | nil => intro s hs; cases hs
  | column hn _ ih =>
    intro s hs
    rcases List.mem_cons.1 hs with rfl | hs
    · exact Or.inl ⟨_, _, rfl, hn⟩
    · exact ih s hs
  | agg ha _ ih =>
    intro s hs
    rcases List.mem_cons.1 hs with rfl | hs
    · exact Or.inr ⟨_, _, ha, List.mem_cons_self ..⟩
    · rcases ih s hs with h | ⟨f, c, h1, h2⟩
      · exact Or.inl h
      · exact Or.inr ⟨f, c, h1, List.mem_cons_of_mem _ h2⟩

theorem groupList_aggs {columns : List Str} {ss : List Sel} {aggs : List (Func × Str)} (h : GroupList columns ss aggs) :
    ∀ a ∈ aggs, a.2 = "*".toList ∨ Name a.2 := by
  induction h with
  | nil => intro s hs; cases hs
  | column _ _ ih => exact ih
  | agg ha _ ih =>
    intro a hm
    rcases List.mem_cons.1 hm with rfl | hm
    · cases ha with
      | column _ hn => exact Or.inr hn
      | star _ => exact Or.inl rfl
    · exact ih a hm

theorem groupList_plain {columns : List Str} {ss : List Sel} {aggs : List (Func × Str)} (h : GroupList columns ss aggs) :
    ∀ s ∈ ss, ∀ a, s ≠ .leaf .star a ∧ (∀ w, s ≠ .leaf (.null w) a) ∧ ∀ b w, s ≠ .leaf (.bool b w) a := by
  intro s hs a
  rcases groupList_mem h s hs with ⟨n, as_, rfl, _⟩ | ⟨f, c, ha, _⟩
  · exact ⟨nofun, nofun, nofun⟩
  · cases ha <;> exact ⟨nofun, nofun, nofun⟩

theorem readable_mem {ss : List Sel} (h : ReadableArgs ss) : ∀ s ∈ ss, s.Readable := by
  induction ss with
  | nil => intro s hs; cases hs
  | cons x ss ih =>
    rw [ReadableArgs] at h
    intro s hs
    rcases List.mem_cons.1 hs with rfl | hs
    · exact h.1
    · exact ih h.2 s hs

theorem name_visible {k : Str} (h : Name k) : k ≠ "*".toList ∧ ∀ f : Func, k ≠ f.name := by
  refine ⟨Name_ne_star h, ?_⟩
  rintro f rfl
  refine h.2.2 ?_
  have : f.name.map Char.toUpper = f.name := by cases f <;> decide
  rw [this]
  have : f.name ∈ aggregatorNames := (func_names f).1
  unfold reserved
  simp [this]

theorem name_ne_key {k : Str} (h : Name k) (f : Func) (c : Str) : k ≠ aggKey f c := by
  rintro rfl
  have : '(' ∈ aggKey f c := by unfold aggKey; simp
  exact absurd (h.2.1 _ this) (by decide)

/-- Conditions do not see what the aggregations put in the records. -/
theorem evaluate_gaug (lib : Lib) (lex : Lex) {columns : List Str} {ss : List Sel} {aggs : List (Func × Str)} (h : GroupList columns ss aggs) {t : Tree}
    (hw : WellNamed t) (hm : ∀ k, Mentions t k → ¬ (k = "*".toList ∨ ∃ a ∈ aggs, k = a.1.name)) (r : Row) :
    Expression.evaluate lib lex (gaug ss r) t = Expression.evaluate lib lex r t := by
  refine evaluate_congr lib lex ?_
  intro c hc k hk
  obtain ⟨s, hs⟩ : ∃ s, Names k s := by
    rcases hk with hk | hk
    · exact (hw c hc).1 k hk
    · exact (hw c hc).2 k hk
  refine evalTerm_agree lex hs ?_
  have h12 := hm s ⟨c, hc, k, hk, hs⟩
  exact gaug_lookup h r (fun e => h12 (Or.inl e)) (fun a ha e => h12 (Or.inr ⟨a, ha, e⟩))

theorem havingStage_of (hre : SaneRe env.re) (hl : Sane env.lex) {table : List Row} {h : Option Str} {keep : Row → Bool} (hk : Having env table h keep) :
    havingStage env h (Gen.of table) = .ok (Gen.of (table.filter keep)) := by
  unfold havingStage
  cases h with
  | none =>
    rw [List.filter_eq_self.2 hk]
    rfl
  | some text =>
    obtain ⟨ls, t, h1, hne, h2, h3, h4⟩ := hk
    rw [Option.filter_some, if_pos (by simpa using hne)]
    simp only
    rw [Tokenizer.C64_expression_partial hre hl ls text h1 h2 t h3]
    show Except.ok (Gen.filter _ (Gen.of table)) = _
    unfold Gen.filter
    exact congrArg Except.ok (filterItems_ok h4)

/-- What is done with the groups, or with the records of a subquery. -/
theorem finish_group (hre : SaneRe env.re) (hl : Sane env.lex) {p : Sql.Parsed} {ss : List Sel}
    (hr : ReadableArgs ss) (hplain : ∀ s ∈ ss, ∀ a, s ≠ .leaf .star a ∧ (∀ w, s ≠ .leaf (.null w) a) ∧ ∀ b w, s ≠ .leaf (.bool b w) a) (hn : Named ss)
    {rows table : List Row}
    (hgs : groupStage env p (ss.map Sel.tok) (Gen.of rows) = .ok (Gen.of table))
    (hhead : ∀ row ∈ table, ∀ s ∈ ss, s.given ≠ none → (Row.lookup row s.heading).isSome = true) {keep : Row → Bool} (hk : Having env table p.having keep)
    (ht : Tame env (view p) ((table.filter keep).map (shown ss))) :
    ∃ res, finishQuery env p (ss.map Sel.tok) (Gen.of rows) = .ok (Gen.of res) ∧ Result (view p) ((table.filter keep).map (shown ss)) res := by
  have hhs := havingStage_of hre hl hk
  have hstar : "*".toList ∉ ss.map Sel.name := by
    intro hm
    obtain ⟨s, hs, e⟩ := List.mem_map.1 hm
    exact name_ne_star (readable_mem hr s hs) (fun a => (hplain s hs a).1) e
  have hshow : ∀ row ∈ table.filter keep, selectRow (ss.map Sel.name) (performRenames (asNames ss) row) = shown ss row := by
    intro row hrow
    exact select_headings hn hstar (hhead row (List.mem_filter.1 hrow).1)
  have hsr : selectStage (getFields (ss.map Sel.tok)) (renameStage (ss.map Sel.tok) (Gen.of (table.filter keep))) =
      Gen.of ((table.filter keep).map (shown ss)) := by
    rw [renameStage_of hn hr, selectStage_of hr hplain hstar, List.map_map]
    congr 1
    exact List.map_congr_left (fun row hrow => hshow row hrow)
  obtain ⟨res, h5, h6⟩ := tail_tame env ht
  refine ⟨res, ?_, h6⟩
  unfold finishQuery
  rw [hgs]
  show (do let g ← havingStage env p.having (Gen.of table); _) = _
  rw [hhs]
  show Except.ok (limitStage _ _) = _
  rw [hsr, h5]

/-- **C49**: GROUP BY and HAVING.  The statement groups the records that meet WHERE: one row for each group, with the grouping values
and the aggregations over the group; those that meet HAVING are given, with the columns asked for; then DISTINCT, ORDER BY, LIMIT.

Missing for the full property: records without one of the grouping columns, aggregations that C39 and C40 leave out, hashes that do not
tell the groups apart (C41), groups with nothing to aggregate (they are left out), functions in the select list. -/
theorem C49_group_partial (hre : SaneRe env.re) (hl : Sane env.lex) (hch : SaneChars env.ch) {raw : Str} {q : Query} (hq : Asks env raw q)
    {b d : Str} (hsel : q.select = some b) (hsrc : q.source = some (.dataset d)) (hd : GoodName env.ch d) {bs : List (List Row)}
    (hbs : env.blobs d = .ok bs) {gtext : Str} {columns : List Str} (hgb : q.groupBy = some gtext) (hcols : ColumnList columns gtext)
    {ss : List Sel} {aggs : List (Func × Str)} (hb : Laid env.re (piecesOf ss) b) (hr : ReadableArgs ss) (hne : ss ≠ [])
    (hgl : GroupList columns ss aggs) (hn : Named ss)
    {cond : Row → Bool} (hw : Where env (fun k => k = "*".toList ∨ ∃ a ∈ aggs, k = a.1.name) bs.flatten q.whereExpr cond)
    {rs : List Record} (hrs : (bs.flatten.filter cond).map (only (columns ++ aggs.map Prod.snd)) = rs.map plain)
    (hhas : ∀ r ∈ rs, ∀ c ∈ columns, r.lookup c ≠ none)
    (hf : Faithful env.groupHash columns rs) (hfew : FewGroups columns rs) (hdup : GroupBy.Spec.Apart aggs)
    (hfine : ∀ r ∈ rs, (∃ a ∈ aggs, nonNull a.2 (groupOf columns rs r) ≠ []) → ∀ f c, (f, c) ∈ aggs → Fine f (nonNull c (groupOf columns rs r)))
    {keep : Row → Bool} (hhv : ∀ table, Table columns aggs rs table → Having env table q.having keep)
    (ht : ∀ table, Table columns aggs rs table → Tame env q ((table.filter keep).map (shown ss))) :
    ∃ g table, Answers env raw g ∧ g.raised = none ∧ Table columns aggs rs table ∧ Result q ((table.filter keep).map (shown ss)) g.items := by
  obtain ⟨p, hp, rfl⟩ := asks_parses hre hl hch hq (by rw [hsel]; simp) (by rw [hsrc]; simp)
    (by intro d' h; rw [hsrc] at h; injection h with h; injection h with h; exact h ▸ hd)
  obtain ⟨_, h2, h3⟩ := init_actual hre hl hr hb hne (fun s hs a => (groupList_plain hgl s hs a).1)
  obtain ⟨n, hrun⟩ := run_dataset hp hsel (source_dataset hsrc) (init_sels hre hl hr hb)
  obtain ⟨hclean, hrs⟩ := cleans_of (records_plain hrs)
  obtain ⟨htext, hcne, hcn⟩ := columnList_ne hcols
  have ho : openReader env (actualSelect b) d p.whereExpr = .ok (Gen.of ((bs.flatten.filter cond).map (gaug ss))) :=
    open_where hre hl hbs hw (tokens := some ((ss ++ [star]).map Sel.tok)) (by unfold readerTokens; rw [if_neg h2, h3]; rfl)
      (fun r _ => call_gaug hl env.funs r hgl hr) (fun _ r _ => call_ne (by simp) (call_gaug hl env.funs r hgl hr)) (fun t h4 h5 r _ => evaluate_gaug env.lib env.lex hgl h4 h5 r)
  generalize bs.flatten.filter cond = rows at hclean hrs ho
  rw [List.map_map] at hrs
  subst hrs
  obtain ⟨C, hC⟩ : ∃ C, C = columns ++ aggs.map Prod.snd := ⟨_, rfl⟩
  rw [← hC] at hclean hhas hf hfew hfine hhv ht ⊢
  have hcl : ∀ r ∈ rows, CleanOn C r := fun r hm => clean_only.1 (hclean _ (List.mem_map_of_mem hm))
  have hmc : ∀ c ∈ columns, c ∈ C := fun c hc => hC ▸ List.mem_append_left _ hc
  have hma : ∀ a ∈ aggs, a.2 ∈ C := fun a ha => hC ▸ List.mem_append_right _ (List.mem_map_of_mem ha)
  -- the records that are grouped have more columns
  have hlook : ∀ r ∈ rows, ∀ k, Name k → Row.lookup (gaug ss r) k = Row.lookup r k ∨
      Row.lookup (gaug ss r) k = some ((Row.lookup r k).getD (.one .none)) :=
    fun r _ k hk => gaug_lookup hgl r (name_visible hk).1 (fun a _ => (name_visible hk).2 a.1)
  have hget : ∀ r ∈ rows, ∀ k ∈ C, Name k → ((recOf ∘ only C ∘ gaug ss) r).get k = ((recOf ∘ only C) r).get k := by
    intro r hm k hkc hk
    rw [Function.comp_apply, Function.comp_apply, Function.comp_apply, recOf_get, recOf_get, only_lookup hkc, only_lookup hkc]
    rcases hlook r hm k hk with e | e
    · rw [e]
    · rw [e]; rfl
  have hsame : ∀ r ∈ rows, ∀ c ∈ columns, ((recOf ∘ only C ∘ gaug ss) r).get c = ((recOf ∘ only C) r).get c :=
    fun r hm c hc => hget r hm c (hmc c hc) (hcn c hc)
  have hasame : ∀ a ∈ aggs, a.2 = "*".toList ∨ ∀ r ∈ rows, ((recOf ∘ only C ∘ gaug ss) r).get a.2 = ((recOf ∘ only C) r).get a.2 := by
    intro a ha
    rcases groupList_aggs hgl a ha with e | e
    · exact Or.inl e
    · exact Or.inr (fun r hm => hget r hm _ (hma a ha) e)
  have hgtext : ∀ r ∈ rows, groupText columns ((recOf ∘ only C ∘ gaug ss) r) = groupText columns ((recOf ∘ only C) r) := by
    intro r hm
    unfold groupText
    congr 1
    refine List.map_congr_left (fun c hc => ?_)
    have hsome := hhas ((recOf ∘ only C) r) (List.mem_map_of_mem hm) c hc
    rw [Function.comp_apply, recOf_lookup, only_lookup (hmc c hc)] at hsome
    rw [Function.comp_apply, Function.comp_apply, Function.comp_apply, recOf_lookup, recOf_lookup, only_lookup (hmc c hc), only_lookup (hmc c hc)]
    rcases hlook r hm c (hcn c hc) with e | e
    · rw [e]
    · rw [e]
      cases hv : Row.lookup r c with
      | none => rw [hv] at hsome; exact absurd rfl hsome
      | some v => rfl
  obtain ⟨table, hg1, hg2⟩ := groupRows_table env (columns := columns) (aggs := aggs) (given := rows.map (gaug ss)) (rows := rows.map (only C ∘ gaug ss))
    (by rw [← hC, looked_only, List.map_map])
    (by intro x hx; obtain ⟨r, hm, rfl⟩ := List.mem_map.1 hx; exact clean_only.2 (cleanOn_gaug hgl (hcl r hm)))
    (by rw [List.map_map]; exact faithful_same hsame hgtext hf) (by rw [List.map_map]; exact few_same hsame hfew) hdup
    (fun a _ hm => name_ne_key (hcn _ hm) a.1 a.2 rfl)
    (by
      rw [List.map_map]
      intro x hx hv f c hm
      obtain ⟨r, hr', rfl⟩ := List.mem_map.1 hx
      rw [nonNull_same hsame (hasame _ hm) hr']
      refine hfine _ (List.mem_map_of_mem hr') ?_ f c hm
      obtain ⟨a, ha, hv⟩ := hv
      exact ⟨a, ha, by rw [← nonNull_same hsame (hasame _ ha) hr']; exact hv⟩)
  rw [List.map_map] at hg2
  have htable : Table columns aggs (rows.map (recOf ∘ only C)) table := table_same hsame hasame hg2
  have hgs : groupStage env p (ss.map Sel.tok) (Gen.of (rows.map (gaug ss))) = .ok (Gen.of table) := by
    have hgb : p.groupBy = some gtext := hgb
    unfold groupStage
    rw [hgb, if_pos (Or.inl (by rw [Option.filter_some, if_pos (by simpa using htext)]; rfl)), groupColumns_of hcols, aggregations_of hgl]
    exact congrArg Except.ok hg1
  obtain ⟨res, h5, h6⟩ := finish_group hre hl hr (groupList_plain hgl) hn hgs (by
    intro row hrow s hs _
    obtain ⟨r, _, hc, ha⟩ := htable.right row hrow
    rcases groupList_mem hgl s hs with ⟨n, as_, rfl, hnc⟩ | ⟨f, c, hagg, hm⟩
    · unfold carries at hc
      rw [List.all_eq_true] at hc
      have := hc n hnc
      rw [beq_iff_eq] at this
      rw [Sel.heading, Leaf.token, this]
      rfl
    · obtain ⟨_, _, _, _, e⟩ := aggregation_tok hagg
      obtain ⟨x, hx, _⟩ := ha f c hm
      rw [e, show aggKey f c = GroupBy.Spec.entryName f c from rfl, hx]
      rfl) (hhv table htable) (ht table htable)
  refine ⟨Gen.of res, table, ⟨n, ?_⟩, rfl, htable, h6⟩
  rw [hrun, ho]
  exact congrArg some h5

theorem groupList_mono {columns columns' : List Str} (hsub : columns ⊆ columns') {ss : List Sel} {aggs : List (Func × Str)}
    (h : GroupList columns ss aggs) : GroupList columns' ss aggs := by
  induction h with
  | nil => exact .nil
  | column hn _ ih => exact .column (hsub hn) ih
  | agg ha _ ih => exact .agg ha ih

theorem groupList_nil {ss : List Sel} (h : GroupList [] ss []) : ss = [] := by
  cases h with
  | nil => rfl
  | column hn _ => cases hn

theorem gaug_star (ss : List Sel) (r : Row) : Row.lookup (gaug ss r) "*".toList = some (.one (.str "*".toList)) := by
  unfold gaug
  rw [foldl_lookup_datum, List.reverse_append, List.reverse_singleton, List.singleton_append, lookup_cons, if_pos rfl]
  rfl

/-- **C49**: aggregations without GROUP BY: one row with the aggregations over all records that meet WHERE. -/
theorem C49_total_partial (hre : SaneRe env.re) (hl : Sane env.lex) (hch : SaneChars env.ch) {raw : Str} {q : Query} (hq : Asks env raw q)
    {b d : Str} (hsel : q.select = some b) (hsrc : q.source = some (.dataset d)) (hd : GoodName env.ch d) {bs : List (List Row)}
    (hbs : env.blobs d = .ok bs) (hgb : q.groupBy = none)
    {ss : List Sel} {aggs : List (Func × Str)} (hb : Laid env.re (piecesOf ss) b) (hr : ReadableArgs ss) (hne : ss ≠ [])
    (hgl : GroupList [] ss aggs) (hn : Named ss)
    {cond : Row → Bool} (hw : Where env (fun k => k = "*".toList ∨ ∃ a ∈ aggs, k = a.1.name) bs.flatten q.whereExpr cond)
    {rs : List Record} (hrs : (bs.flatten.filter cond).map (only ("*".toList :: aggs.map Prod.snd)) = rs.map plain)
    (hdup : GroupBy.Spec.Apart aggs)
    (hfine : (∃ a ∈ aggs, nonNull a.2 rs ≠ []) → ∀ f c, (f, c) ∈ aggs → Fine f (nonNull c rs))
    {keep : Row → Bool} (hhv : ∀ table, Total aggs rs table → Having env table q.having keep)
    (ht : ∀ table, Total aggs rs table → Tame env q ((table.filter keep).map (shown ss))) :
    ∃ g table, Answers env raw g ∧ g.raised = none ∧ Total aggs rs table ∧ Result q ((table.filter keep).map (shown ss)) g.items := by
  obtain ⟨p, hp, rfl⟩ := asks_parses hre hl hch hq (by rw [hsel]; simp) (by rw [hsrc]; simp)
    (by intro d' h; rw [hsrc] at h; injection h with h; injection h with h; exact h ▸ hd)
  obtain ⟨_, h2, h3⟩ := init_actual hre hl hr hb hne (fun s hs a => (groupList_plain hgl s hs a).1)
  obtain ⟨n, hrun⟩ := run_dataset hp hsel (source_dataset hsrc) (init_sels hre hl hr hb)
  obtain ⟨hclean, hrs⟩ := cleans_of (records_plain hrs)
  have haggs : aggs ≠ [] := fun e => hne (groupList_nil (e ▸ hgl))
  have ho : openReader env (actualSelect b) d p.whereExpr = .ok (Gen.of ((bs.flatten.filter cond).map (gaug ss))) :=
    open_where hre hl hbs hw (tokens := some ((ss ++ [star]).map Sel.tok)) (by unfold readerTokens; rw [if_neg h2, h3]; rfl)
      (fun r _ => call_gaug hl env.funs r hgl hr) (fun _ r _ => call_ne (by simp) (call_gaug hl env.funs r hgl hr)) (fun t h4 h5 r _ => evaluate_gaug env.lib env.lex hgl h4 h5 r)
  generalize bs.flatten.filter cond = rows at hclean hrs ho
  rw [List.map_map] at hrs
  subst hrs
  obtain ⟨C, hC⟩ : ∃ C, C = "*".toList :: aggs.map Prod.snd := ⟨_, rfl⟩
  rw [← hC] at hclean hfine hhv ht ⊢
  have hcl : ∀ r ∈ rows, CleanOn C r := fun r hm => clean_only.1 (hclean _ (List.mem_map_of_mem hm))
  have hms : "*".toList ∈ C := hC ▸ List.mem_cons_self ..
  have hma : ∀ a ∈ aggs, a.2 ∈ C := fun a ha => hC ▸ List.mem_cons_of_mem _ (List.mem_map_of_mem ha)
  have hgl' : GroupList ["*".toList] ss aggs := groupList_mono (List.nil_subset _) hgl
  have hgetstar : ∀ r, ((recOf ∘ only C ∘ gaug ss) r).get "*".toList = .str "*".toList := by
    intro r
    rw [Function.comp_apply, Function.comp_apply, recOf_get, only_lookup hms, gaug_star]
    rfl
  have hall : ∀ r s, agree ["*".toList] ((recOf ∘ only C ∘ gaug ss) r) ((recOf ∘ only C ∘ gaug ss) s) = true := by
    intro r s
    unfold agree
    rw [List.all_cons, hgetstar, hgetstar]
    rfl
  have htext : ∀ r, GroupBy.Spec.texts ["*".toList] ((recOf ∘ only C ∘ gaug ss) r) = "*".toList := by
    intro r
    show groupText ["*".toList] ((recOf ∘ only C ∘ gaug ss) r) = "*".toList
    unfold groupText
    rw [List.map_cons, Function.comp_apply, Function.comp_apply, recOf_lookup, only_lookup hms, gaug_star]
    rfl
  have hgroup : ∀ a ∈ aggs, ∀ r, nonNull a.2 (groupOf ["*".toList] (rows.map (recOf ∘ only C ∘ gaug ss)) ((recOf ∘ only C ∘ gaug ss) r)) =
      nonNull a.2 (rows.map (recOf ∘ only C)) := by
    intro a ha r
    rw [groupOf_map, List.filter_eq_self.2 (fun s _ => hall r s)]
    refine nonNull_map ?_
    rcases groupList_aggs hgl a ha with e | e
    · exact Or.inl e
    · refine Or.inr (fun r _ => ?_)
      rw [Function.comp_apply, Function.comp_apply, Function.comp_apply, recOf_get, recOf_get, only_lookup (hma a ha), only_lookup (hma a ha)]
      rcases gaug_lookup hgl r (name_visible e).1 (fun a _ => (name_visible e).2 a.1) with e | e
      · rw [e]
      · rw [e]; rfl
  obtain ⟨table, hg1, hg2⟩ := groupRows_table env (columns := ["*".toList]) (aggs := aggs) (given := rows.map (gaug ss)) (rows := rows.map (only C ∘ gaug ss))
    (by rw [List.singleton_append, ← hC, looked_only, List.map_map])
    (by intro x hx; obtain ⟨r, hm, rfl⟩ := List.mem_map.1 hx; exact clean_only.2 (cleanOn_gaug hgl (hcl r hm)))
    (by
      rw [List.map_map]
      intro x hx y hy
      obtain ⟨r, _, rfl⟩ := List.mem_map.1 hx
      obtain ⟨s, _, rfl⟩ := List.mem_map.1 hy
      rw [htext, htext]
      exact ⟨fun _ => hall r s, fun _ => rfl⟩)
    (by
      rw [List.map_map]
      intro l hl hp
      obtain ⟨l', _, rfl⟩ := preimages hl
      match l', hp with
      | [], _ => rw [List.map_nil, List.length_nil]; decide
      | [x], _ => rw [List.map_cons, List.map_nil, List.length_singleton]; decide
      | x :: y :: l', hp =>
        rw [List.map_cons, List.map_cons, List.pairwise_cons] at hp
        have := hp.1 _ (List.mem_cons_self ..)
        rw [hall] at this
        cases this) hdup
    (by
      intro a _ hm
      rw [List.mem_singleton] at hm
      have : '(' ∈ GroupBy.Spec.entryName a.1 a.2 := by unfold GroupBy.Spec.entryName; simp
      rw [hm] at this
      exact absurd this (by decide))
    (by
      rw [List.map_map]
      intro x hx hv f c hm
      obtain ⟨r, hr', rfl⟩ := List.mem_map.1 hx
      rw [hgroup _ hm]
      refine hfine ?_ f c hm
      obtain ⟨a, ha, hv⟩ := hv
      exact ⟨a, ha, by rw [← hgroup a ha r]; exact hv⟩)
  rw [List.map_map] at hg2
  have hcarry : ∀ row ∈ table, ∀ r, carries ["*".toList] ((recOf ∘ only C ∘ gaug ss) r) row = true := by
    intro row hrow r
    obtain ⟨x, hx, hc, _⟩ := hg2.right row hrow
    obtain ⟨s, _, rfl⟩ := List.mem_map.1 hx
    unfold carries at hc ⊢
    rw [List.all_cons, hgetstar] at hc ⊢
    exact hc
  have htable : Total aggs (rows.map (recOf ∘ only C)) table := by
    refine ⟨?_, ?_⟩
    · rintro ⟨a, ha, hv⟩
      obtain ⟨r, hr'⟩ : ∃ r, r ∈ rows := by
        cases rows with
        | nil => exact absurd (by unfold nonNull; split <;> rfl) hv
        | cons r _ => exact ⟨r, List.mem_cons_self ..⟩
      have h1 := hg2.one _ (List.mem_map_of_mem hr') (Or.inr ⟨a, ha, by rw [hgroup a ha]; exact hv⟩)
      rw [List.filter_eq_self.2 (fun row hrow => hcarry row hrow r), List.length_eq_one_iff] at h1
      obtain ⟨row, rfl⟩ := h1
      refine ⟨row, rfl, ?_⟩
      intro f c hm
      obtain ⟨x, hx, _, h2⟩ := hg2.right row (List.mem_singleton.2 rfl)
      obtain ⟨s, _, rfl⟩ := List.mem_map.1 hx
      obtain ⟨y, h3, h4⟩ := h2 f c hm
      rw [hgroup _ hm] at h4
      exact ⟨y, h3, h4⟩
    · intro hv
      rw [List.eq_nil_iff_forall_not_mem]
      intro row hrow
      obtain ⟨x, hx, _, _⟩ := hg2.right row hrow
      obtain ⟨s, _, rfl⟩ := List.mem_map.1 hx
      have h1 := hg2.none _ hx haggs (fun a ha => by rw [hgroup a ha]; exact hv a ha)
      have : row ∈ table.filter (carries ["*".toList] ((recOf ∘ only C ∘ gaug ss) s)) := List.mem_filter.2 ⟨hrow, hcarry row hrow s⟩
      rw [h1] at this
      cases this
  have hgs : groupStage env p (ss.map Sel.tok) (Gen.of (rows.map (gaug ss))) = .ok (Gen.of table) := by
    have hgb : p.groupBy = none := hgb
    have hany : (ss.map Sel.tok).any (fun t => t.type = .aggregator) = true := by
      cases ss with
      | nil => exact absurd rfl hne
      | cons s ss =>
        rcases groupList_mem hgl s (List.mem_cons_self ..) with ⟨_, _, _, hx⟩ | ⟨f, c, ha, _⟩
        · cases hx
        · obtain ⟨p, as_, e, _⟩ := aggregation_tok ha
          rw [List.map_cons, e, List.any_cons]
          rfl
    unfold groupStage
    rw [hgb, if_pos (Or.inr hany), show groupColumns none = ["*".toList] from rfl, aggregations_of hgl']
    exact congrArg Except.ok hg1
  obtain ⟨res, h5, h6⟩ := finish_group hre hl hr (groupList_plain hgl) hn hgs (by
    intro row hrow s hs _
    obtain ⟨r, _, _, ha⟩ := hg2.right row hrow
    rcases groupList_mem hgl s hs with ⟨n, as_, rfl, hnc⟩ | ⟨f, c, hagg, hm⟩
    · cases hnc
    · obtain ⟨_, _, _, _, e⟩ := aggregation_tok hagg
      obtain ⟨x, hx, _⟩ := ha f c hm
      rw [e, show aggKey f c = GroupBy.Spec.entryName f c from rfl, hx]
      rfl) (hhv table htable) (ht table htable)
  refine ⟨Gen.of res, table, ⟨n, ?_⟩, rfl, htable, h6⟩
  rw [hrun, ho]
  exact congrArg some h5

end Mabel.SqlReader
