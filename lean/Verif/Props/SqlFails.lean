import Verif.Props.SqlGroup

/-!
# C49: subqueries, and the statements that are answered wrongly
-/

namespace Mabel.SqlReader
open Mabel.Py Mabel.Dates Mabel.Tokens Mabel.Filters Mabel.Records Mabel.Blobs Mabel.Expression Mabel.Expression.Spec Mabel.Evaluator
  Mabel.Evaluator.Spec Mabel.SqlReader.Spec
open Mabel.Sql.Spec (Query Clause Statement OrderLast SaneChars GoodName Parses view)
open Mabel.Tokenizer (Re parseText asciiRe asciiRe_sane)
open Mabel.Tokenizer.Spec (SaneRe capitals)
open Mabel.GroupBy (Func extend)
open Mabel.GroupBy.Spec (nonNull)

variable {env : Env}

/-! ## Subqueries -/

theorem groupStage_none {p : Sql.Parsed} {ss : List Sel} (hg : GoodArgs ss) (hgb : p.groupBy = none) (g : Gen Row) :
    groupStage env p (ss.map Sel.tok) g = .ok g := by
  unfold groupStage
  rw [hgb, no_aggregator hg]
  rfl

/-- **C49** (fails): WHERE is not applied to the result of a subquery.  Whatever the condition, the statement answers with all the
records of the inner statement (that meet HAVING). -/
theorem C49_subquery_where_fails (hre : SaneRe env.re) (hl : Sane env.lex) (hch : SaneChars env.ch) {raw : Str} {q : Query} (hq : Asks env raw q)
    {b inner : Str} (hsel : q.select = some b) (hsrc : q.source = some (.statement inner)) (hgb : q.groupBy = none)
    {rows : List Row} (hin : Answers env inner (Gen.of rows))
    {ss : List Sel} (hb : Laid env.re (piecesOf ss) b) (hg : GoodArgs ss) (hn : Named ss)
    (hplain : ∀ s ∈ ss, ∀ a, s ≠ .leaf .star a ∧ (∀ w, s ≠ .leaf (.null w) a) ∧ ∀ b w, s ≠ .leaf (.bool b w) a)
    (hhead : ∀ row ∈ rows, ∀ s ∈ ss, s.given ≠ none → row.lookup s.heading ≠ none)
    {keep : Row → Bool} (hk : Having env rows q.having keep) (ht : Tame env q ((rows.filter keep).map (shown ss))) :
    ∃ g, Answers env raw g ∧ g.raised = none ∧ Result q ((rows.filter keep).map (shown ss)) g.items := by
  obtain ⟨p, hp, rfl⟩ := asks_parses hre hl hch hq (by rw [hsel]; simp) (by rw [hsrc]; simp) (by intro d h; rw [hsrc] at h; simp at h)
  obtain ⟨ps, hps, hflat⟩ := source_statement hsrc
  have hr := readables_good _ hg
  obtain ⟨n, hn'⟩ := run_subquery hp hsel hps (init_sels hre hl hr hb) (by rw [hflat]; exact hin)
  obtain ⟨res, h5, h6⟩ := finish_group hre hl hr hplain hn (groupStage_none hg hgb (Gen.of rows))
    (fun row hrow s hs h => Option.isSome_iff_ne_none.2 (hhead row hrow s hs h)) hk ht
  exact ⟨Gen.of res, ⟨n, by rw [hn', h5]⟩, rfl, h6⟩

/-- **C49**: columns of the result of another statement.

Missing for the full property: WHERE, and functions: they are not computed. -/
theorem C49_subquery_partial (hre : SaneRe env.re) (hl : Sane env.lex) (hch : SaneChars env.ch) {raw : Str} {q : Query} (hq : Asks env raw q)
    {b inner : Str} (hsel : q.select = some b) (hsrc : q.source = some (.statement inner)) (hgb : q.groupBy = none) (_hwh : q.whereExpr = none)
    {rows : List Row} (hin : Answers env inner (Gen.of rows))
    {ss : List Sel} (hb : Laid env.re (piecesOf ss) b) (hg : GoodArgs ss) (hn : Named ss) (hfields : ∀ s ∈ ss, ∃ n a, s = .leaf (.field n) a)
    (hhead : ∀ row ∈ rows, ∀ s ∈ ss, s.given ≠ none → row.lookup s.heading ≠ none)
    {keep : Row → Bool} (hk : Having env rows q.having keep) (ht : Tame env q ((rows.filter keep).map (shown ss))) :
    ∃ g, Answers env raw g ∧ g.raised = none ∧ Result q ((rows.filter keep).map (shown ss)) g.items :=
  C49_subquery_where_fails hre hl hch hq hsel hsrc hgb hin hb hg hn
    (by
      intro s hs a
      obtain ⟨n, a', rfl⟩ := hfields s hs
      exact ⟨nofun, nofun, nofun⟩) hhead hk ht

/-- `SELECT *` of another statement. -/
theorem C49_subquery_star_partial (hre : SaneRe env.re) (hl : Sane env.lex) (hch : SaneChars env.ch) {raw : Str} {q : Query} (hq : Asks env raw q)
    {inner : Str} (hsel : q.select = some "*".toList) (hsrc : q.source = some (.statement inner)) (hgb : q.groupBy = none)
    (_hwh : q.whereExpr = none) {rows : List Row} (hin : Answers env inner (Gen.of rows))
    {keep : Row → Bool} (hk : Having env rows q.having keep) (ht : Tame env q (rows.filter keep)) :
    ∃ g, Answers env raw g ∧ g.raised = none ∧ Result q (rows.filter keep) g.items := by
  obtain ⟨p, hp, rfl⟩ := asks_parses hre hl hch hq (by rw [hsel]; simp) (by rw [hsrc]; simp) (by intro d h; rw [hsrc] at h; simp at h)
  obtain ⟨ps, hps, hflat⟩ := source_statement hsrc
  obtain ⟨n, hn⟩ := run_subquery hp hsel hps (init_star hre hl) (by rw [hflat]; exact hin)
  obtain ⟨res, h5, h6⟩ := tail_tame env ht
  refine ⟨Gen.of res, ⟨n, ?_⟩, rfl, h6⟩
  rw [hn]
  show some (finishQuery env p ([star].map Sel.tok) _) = _
  have h1 := groupStage_none (env := env) (p := p) good_stars hgb (Gen.of rows)
  have h2 : havingStage env p.having (Gen.of rows) = .ok (Gen.of (rows.filter keep)) := havingStage_of hre hl hk
  unfold finishQuery
  rw [h1]
  show some (do let g ← havingStage env p.having (Gen.of rows); _) = _
  rw [h2]
  exact congrArg (fun x => some (Except.ok x)) h5

/-- **C49** (fails): functions are not computed over a subquery: every record gives None for a call, whatever the function, unless the
inner statement has a column with that name. -/
theorem C49_subquery_call_fails (hre : SaneRe env.re) (hl : Sane env.lex) (hch : SaneChars env.ch) {raw : Str} {b inner : Str}
    (hq : Asks env raw { select := some b, source := some (.statement inner) }) {rows : List Row} (hin : Answers env inner (Gen.of rows))
    {f : Str} {args : List Sel} (hb : Laid env.re (piecesOf [.call f args none]) b) (hg : GoodArgs [.call f args none])
    (hno : ∀ row ∈ rows, row.lookup (Sel.call f args none).heading = none) :
    ∃ g, Answers env raw g ∧ g.raised = none ∧ g.items = rows.map (fun _ => [((Sel.call f args none).heading, .one .none)]) := by
  have hnamed : Named [.call f args none] :=
    ⟨by simp, by intro s hs h; rw [List.mem_singleton] at hs; subst hs; exact absurd rfl h, by simp [Sel.given]⟩
  obtain ⟨g, h1, h2, h3⟩ := C49_subquery_where_fails hre hl hch hq rfl rfl rfl hin hb hg hnamed
    (by intro s hs a; rw [List.mem_singleton] at hs; subst hs; exact ⟨nofun, nofun, nofun⟩)
    (by intro row _ s hs h; rw [List.mem_singleton] at hs; subst hs; exact absurd rfl h) (keep := fun _ => true) (fun _ _ => rfl)
    ⟨nofun, nofun, fun h => absurd rfl h, nofun⟩
  refine ⟨g, h1, h2, ?_⟩
  have h3 : g.items = (rows.filter (fun _ => true)).map (shown [.call f args none]) := h3
  rw [h3, List.filter_eq_self.2 (fun _ _ => rfl)]
  refine List.map_congr_left (fun row hrow => ?_)
  unfold shown
  rw [List.map_singleton, hno row hrow]
  rfl

/-! ## LIMIT and ORDER BY -/

/-- `SELECT *` of a dataset, without WHERE, GROUP BY and HAVING: records without columns are dropped. -/
theorem star_run (hre : SaneRe env.re) (hl : Sane env.lex) (hch : SaneChars env.ch) {raw : Str} {q : Query} (hq : Asks env raw q) {d : Str}
    (hsel : q.select = some "*".toList) (hsrc : q.source = some (.dataset d)) (hd : GoodName env.ch d) (hgb : q.groupBy = none)
    (hhv : q.having = none) (hwh : q.whereExpr = none) {bs : List (List Row)} (hbs : env.blobs d = .ok bs) :
    Answers env raw (limitStage q.limit (orderStage q.orderBy q.descending q.limit (distinctStage env q.distinct
      (Gen.of (bs.flatten.filter (fun r => decide (r ≠ []))))))) := by
  obtain ⟨p, hp, rfl⟩ := asks_parses hre hl hch hq (by rw [hsel]; simp) (by rw [hsrc]; simp)
    (by intro d' h; rw [hsrc] at h; injection h with h; injection h with h; exact h ▸ hd)
  obtain ⟨n, hn⟩ := run_dataset hp hsel (source_dataset hsrc) (init_star hre hl)
  refine ⟨n, ?_⟩
  have hwh : p.whereExpr = none := hwh
  have ho : openReader env (actualSelect "*".toList) d p.whereExpr =
      .ok (Gen.of ((bs.flatten.filter (fun r => decide (r ≠ []))).map id)) := by
    rw [hwh]
    exact open_raw hre hl hbs (tokens := none) rfl (fun r _ => rfl) (fun _ _ _ => rfl) (by rintro text h; cases h)
  rw [hn, ho, List.map_id]
  show some (finishQuery env p ([star].map Sel.tok) _) = _
  rw [finish_plain good_stars hgb hhv]
  rfl

/-- **C49** (fails): `SELECT *` without a condition drops the records that have no columns. -/
theorem C49_star_empty_fails (hre : SaneRe env.re) (hl : Sane env.lex) (hch : SaneChars env.ch) {raw : Str} {d : Str}
    (hq : Asks env raw { select := some "*".toList, source := some (.dataset d) }) (hd : GoodName env.ch d)
    {bs : List (List Row)} (hbs : env.blobs d = .ok bs) :
    Answers env raw (Gen.of (bs.flatten.filter (fun r => decide (r ≠ [])))) :=
  star_run hre hl hch hq rfl rfl hd rfl rfl rfl hbs

/-- **C49** (fails): a NOT in place of an operand is accepted, and the statement cannot be read: whatever the dataset holds, asking
for the first record raises AttributeError. -/
theorem C49_bare_not_fails (hre : SaneRe env.re) (hl : Sane env.lex) (hch : SaneChars env.ch) {raw : Str} {d w : Str}
    (hq : Asks env raw { select := some "*".toList, source := some (.dataset d), whereExpr := some w }) (hd : GoodName env.ch d)
    {bs : List (List Row)} (hbs : env.blobs d = .ok bs) {ls : List Tokenizer.Spec.Lexeme} (hw : Tokenizer.Spec.Laid env.re ls w)
    (hsimple : ∀ l ∈ ls, l.Simple env.re) {l : Term} {a : List Str} (hb : Before l a) {op : Str} (hop : op ∈ Tokens.operators.map (·.1))
    (ht : ls.map Tokenizer.Spec.Lexeme.token = a ++ [op, "NOT".toList]) : Answers env raw (Gen.fail .attributeError) := by
  obtain ⟨p, hp, he⟩ := asks_parses hre hl hch hq (by simp) (by simp)
    (by intro d' h; injection h with h; injection h with h; exact h ▸ hd)
  have hsel : p.select = some "*".toList := congrArg Query.select he
  have hsrc : p.source = some (.dataset d) := source_dataset (congrArg Query.source he)
  have hwh : p.whereExpr = some w := congrArg Query.whereExpr he
  obtain ⟨n, hn⟩ := run_dataset hp hsel hsrc (init_star hre hl)
  refine ⟨n, ?_⟩
  have htree : parseText env.re env.lex w = .ok (.cmp l op .bareNot) := by
    unfold parseText
    rw [Tokenizer.C64_tokens_partial hre hl ls w hw hsimple, ht]
    exact C74_not_operand_fails hl l a hb op hop
  have hdnf : toDnf env.lib (.cmp l op .bareNot) = .error .attributeError := by
    rw [toDnf]
    cases l <;> rfl
  have ho : openReader env (actualSelect "*".toList) d p.whereExpr = .ok (Gen.fail .attributeError) := by
    rw [hwh]
    unfold openReader readerTree
    simp only
    rw [htree]
    show Except.ok (readBlobs env _ _ d) = _
    unfold readBlobs
    rw [hbs]
    simp only
    rw [hdnf]
  rw [hn, ho]
  show some (finishQuery env p ([star].map Sel.tok) _) = _
  rw [finish_plain good_stars (congrArg Query.groupBy he) (congrArg Query.having he)]
  have h1 : p.limit = none := congrArg Query.limit he
  have h2 : p.orderBy = none := congrArg Query.orderBy he
  have h3 : p.distinct = false := congrArg Query.distinct he
  rw [h1, h2, h3]
  rfl

/-- **C49** (fails): a LIMIT that is zero or negative is no limit. -/
theorem C49_limit_zero_fails (hre : SaneRe env.re) (hl : Sane env.lex) (hch : SaneChars env.ch) {raw : Str} {d : Str} {i : Int} (hi : i ≤ 0)
    (hq : Asks env raw { select := some "*".toList, source := some (.dataset d), limit := some i }) (hd : GoodName env.ch d) {bs : List (List Row)}
    (hbs : env.blobs d = .ok bs) (hfull : ∀ r ∈ bs.flatten, r ≠ []) : Answers env raw (Gen.of bs.flatten) := by
  have h := star_run hre hl hch hq rfl rfl hd rfl rfl rfl hbs
  rw [List.filter_eq_self.2 (fun r hr => by simpa using hfull r hr)] at h
  have e : limitStage (some i) (Gen.of bs.flatten) = Gen.of bs.flatten := by
    unfold limitStage
    rw [Option.filter_some]
    by_cases h0 : i = 0
    · rw [if_neg (by simpa using h0)]
    · rw [if_pos (by simpa using h0)]
      simp only
      unfold DictSet.itake
      rw [DictSet.itakeFrom_eq, if_neg (by omega), if_neg (by omega)]
  rw [← e]
  exact h

theorem order_cap (orderBy : Option Str) (descending : Bool) (g : Gen Row) {c : Str} (hc : orderBy = some c) (hne : c ≠ []) :
    (orderStage orderBy descending none g).items.length ≤ 10000 := by
  unfold orderStage
  rw [hc, Option.filter_some, if_pos (by simpa using hne)]
  simp only
  split
  · exact Nat.zero_le _
  · split
    · rename_i hr
      obtain ⟨cache, -, -, rfl⟩ := sortAndTake_inv hr
      show (upTo (10000 : Int) _).length ≤ 10000
      unfold upTo
      rw [if_pos (by simp), List.length_take]
      exact Nat.min_le_left _ _
    · exact Nat.zero_le _

/-- **C49** (fails): `SELECT *` with ORDER BY and without LIMIT gives at most 10000 records, however many there are. -/
theorem C49_order_star_fails (hre : SaneRe env.re) (hl : Sane env.lex) (hch : SaneChars env.ch) {raw : Str} {d c : Str} {desc : Bool} (hne : c ≠ [])
    (hq : Asks env raw { select := some "*".toList, source := some (.dataset d), orderBy := some c, descending := desc }) (hd : GoodName env.ch d)
    {bs : List (List Row)} (hbs : env.blobs d = .ok bs) (hcmp : Comparable c bs.flatten) :
    ∃ g, Answers env raw g ∧ g.raised = none ∧ g.items.length ≤ 10000 := by
  refine ⟨_, star_run hre hl hch hq rfl rfl hd rfl rfl rfl hbs, ?_, order_cap _ _ _ rfl hne⟩
  show (orderStage (some c) desc none (Gen.of _)).raised = none
  rw [orderStage_of hne desc none (fun a ha b hb => hcmp a (List.mem_filter.1 ha).1 b (List.mem_filter.1 hb).1) 10000 rfl]
  rfl

/-- **C49**: ORDER BY a column whose values cannot be compared (a text among numbers) raises TypeError and gives no record. -/
theorem C49_order_mixed (hre : SaneRe env.re) (hl : Sane env.lex) (hch : SaneChars env.ch) {raw : Str} {d c : Str} {desc : Bool} (hne : c ≠ [])
    (hq : Asks env raw { select := some "*".toList, source := some (.dataset d), orderBy := some c, descending := desc }) (hd : GoodName env.ch d)
    {bs : List (List Row)} (hbs : env.blobs d = .ok bs) (hfew : bs.flatten.length ≤ 20001)
    (hmix : ∃ a ∈ bs.flatten, ∃ b ∈ bs.flatten, ∃ s t, value c a = some (.one s) ∧ value c b = some (.one t) ∧ ¬ Order.Comparable s t) :
    ∃ g, Answers env raw g ∧ g.raised = some .typeError ∧ g.items = [] := by
  refine ⟨_, star_run hre hl hch hq rfl rfl hd rfl rfl rfl hbs, ?_⟩
  have hfail : orderStage (some c) desc none (Gen.of (bs.flatten.filter (fun r => decide (r ≠ [])))) = Gen.fail .typeError := by
    unfold orderStage
    rw [Option.filter_some, if_pos (by simpa using hne)]
    show (match sortAndTake .noPersistance c desc 10000 (bs.flatten.filter (fun r => decide (r ≠ []))) with
      | .ok rows => Gen.of rows
      | .error e => Gen.fail e) = _
    rw [sortAndTake_mixed (by simpa using Nat.le_trans (List.length_filter_le _ _) hfew)]
    obtain ⟨a, ha, b, hb, s, t, h1, h2, h3⟩ := hmix
    have h4 : a ≠ b := by
      rintro rfl
      rw [h1] at h2
      cases h2
      exact h3 (value_self h1)
    have ne : ∀ {r : Row} {x}, value c r = some x → r ≠ [] := by
      rintro r x h rfl
      cases h
    exact ⟨a, List.mem_filter.2 ⟨ha, by simpa using ne h1⟩, b, List.mem_filter.2 ⟨hb, by simpa using ne h2⟩, h4, fun hk => by
      rcases hk _ _ h1 h2 with ⟨s', t', e1, e2, h⟩ | ⟨l, m, e1, _⟩
      · cases e1; cases e2; exact h3 h
      · cases e1⟩
  show (orderStage (some c) desc none (Gen.of _)).raised = _ ∧ (limitStage none (orderStage (some c) desc none (Gen.of _))).items = _
  rw [hfail]
  exact ⟨rfl, rfl⟩

/-- So does any statement that is answered. -/
theorem C49_order_cap_fails {raw : Str} {g : Gen Row} (h : Answers env raw g) {p : Sql.Parsed} (hp : Parses env.re env.lex env.ch raw (.ok p))
    {c : Str} (hc : (view p).orderBy = some c) (hne : c ≠ []) (hlim : (view p).limit = none) : g.items.length ≤ 10000 := by
  obtain ⟨g3, rfl⟩ := answers_tail h hp
  have hc : p.orderBy = some c := hc
  have hlim : p.limit = none := hlim
  rw [hc, hlim]
  exact Nat.le_trans (limitStage_sublist _ _).length_le (order_cap _ _ _ rfl hne)

/-- **C49** (fails): ORDER BY a column that is not selected does nothing: the records stay in their order.  (The columns are chosen
before the records are ordered.) -/
theorem C49_order_unselected_fails (hre : SaneRe env.re) (hl : Sane env.lex) (hch : SaneChars env.ch) {raw : Str} {q : Query} (hq : Asks env raw q)
    {b d : Str} (hsel : q.select = some b) (hsrc : q.source = some (.dataset d)) (hd : GoodName env.ch d) {bs : List (List Row)}
    (hbs : env.blobs d = .ok bs) (hgb : q.groupBy = none) (hhv : q.having = none)
    {ss : List Sel} (hb : Laid env.re (piecesOf ss) b) (hg : GoodArgs ss) (hs : Selectable ss bs.flatten)
    {out : Row → Row} (hout : ∀ r ∈ bs.flatten, columns env.funs r ss = .ok (out r))
    {cond : Row → Bool} (hw : Where env (Hidden ss) bs.flatten q.whereExpr cond)
    {c : Str} (hc : q.orderBy = some c) (hne : c ≠ []) (hno : c ∉ ss.map Sel.name) (hdist : q.distinct = false)
    (hfew : q.limit = none → (bs.flatten.filter cond).length ≤ 10000) (hpos : ∀ i, q.limit = some i → 0 < i) :
    ∃ g, Answers env raw g ∧ g.raised = none ∧ g.items = atMost q.limit ((bs.flatten.filter cond).map out) := by
  have hv : ∀ r ∈ (bs.flatten.filter cond).map out, value c r = none := by
    intro x hx
    obtain ⟨r, hr, rfl⟩ := List.mem_map.1 hx
    have := (columns_val (hout r (List.mem_filter.1 hr).1)).1
    unfold value
    rw [lookup_none]
    rw [this, List.map_map]
    exact hno
  obtain ⟨g, h1, h2, h3⟩ := C49_select_partial hre hl hch hq hsel hsrc hd hbs hgb hhv hb hg hs hout hw
    ⟨(by rw [hdist]; nofun), (by
      intro c' h
      rw [hc] at h
      injection h with h
      subst h
      exact ⟨hne, fun a ha b hb x y hx => by rw [hv a ha] at hx; cases hx⟩),
      fun _ hn => by rw [List.length_map]; exact hfew hn, hpos⟩
  refine ⟨g, h1, h2, ?_⟩
  unfold Result at h3
  rw [hc, hdist] at h3
  obtain ⟨s, hs, h3⟩ := h3
  have e := hs.stable none (fun r => (value c r).isNone) (fun r => by cases h : value c r with
    | none => simp [SameValue]
    | some x => cases x <;> simp [SameValue])
  rw [List.filter_eq_self.2, List.filter_eq_self.2] at e
  · rw [h3, e]; rfl
  · intro r hr
    rw [hv r hr]; rfl
  · intro r hr
    rw [hv r (hs.perm.mem_iff.1 hr)]; rfl


/-! ## SELECT -/

/-- A statement with only SELECT and FROM. -/
theorem select_run (hre : SaneRe env.re) (hl : Sane env.lex) (hch : SaneChars env.ch) {raw b d : Str}
    (hq : Asks env raw { select := some b, source := some (.dataset d) }) (hd : GoodName env.ch d) {bs : List (List Row)}
    (hbs : env.blobs d = .ok bs) {ss : List Sel} (hb : Laid env.re (piecesOf ss) b) (hg : GoodArgs ss) (hne : ss ≠ [])
    (hst : ∀ s ∈ ss, ∀ a, s ≠ .leaf .star a) :
    Answers env raw (selectStage (getFields (ss.map Sel.tok)) (renameStage (ss.map Sel.tok)
      (Gen.of (bs.flatMap (readBlob (fun r => (call env.funs env.lex ((ss ++ [star]).map Sel.tok) r).1) (fun _ => .ok true)))))) := by
  obtain ⟨p, hp, hv⟩ := asks_parses hre hl hch hq (by simp) (by simp)
    (by intro d' h; simp only [Option.some.injEq, Mabel.Sql.Spec.Place.dataset.injEq] at h; exact h ▸ hd)
  have hsel : p.select = some b := congrArg Query.select hv
  have hsrc := source_dataset (congrArg Query.source hv)
  have hgb : p.groupBy = none := congrArg Query.groupBy hv
  have hhv : p.having = none := congrArg Query.having hv
  have hwh : p.whereExpr = none := congrArg Query.whereExpr hv
  have hob : p.orderBy = none := congrArg Query.orderBy hv
  have hdi : p.distinct = false := congrArg Query.distinct hv
  have hli : p.limit = none := congrArg Query.limit hv
  obtain ⟨_, h2, h3⟩ := init_actual hre hl (readables_good _ hg) hb hne hst
  obtain ⟨n, hn⟩ := run_dataset hp hsel hsrc (init_sels hre hl (readables_good _ hg) hb)
  refine ⟨n, ?_⟩
  have ho : openReader env (actualSelect b) d p.whereExpr =
      .ok (Gen.of (bs.flatMap (readBlob (fun r => (call env.funs env.lex ((ss ++ [star]).map Sel.tok) r).1) (fun _ => .ok true)))) := by
    rw [hwh]
    unfold openReader
    show (readerTokens env (actualSelect b)).bind _ = _
    unfold readerTokens
    rw [if_neg h2, h3]
    show Except.ok (readBlobs env none _ d) = _
    unfold readBlobs
    rw [hbs]
    simp only
    rw [List.flatMap_congr (fun rows _ => readBlob_kept (fun r x h => readerColumns_ne (by simp) h) rows)]
    rfl
  rw [hn, ho]
  show some (finishQuery env p (ss.map Sel.tok) _) = _
  rw [finish_plain hg hgb hhv, hob, hdi, hli]
  rfl

theorem columns_error {F : Funs} {r : Row} {ss : List Sel} {e : Err} (h : columns F r ss = .error e) : putColumns F r ss = .error e := by
  induction ss with
  | nil => cases h
  | cons s ss ih =>
    rw [columns] at h
    rw [putColumns]
    cases hv : s.value F r with
    | error e' => rw [hv] at h; exact h
    | ok v =>
      rw [hv] at h
      cases hc : columns F r ss with
      | ok cols => rw [hc] at h; cases h
      | error e' =>
        rw [hc] at h
        injection h with h
        subst h
        rw [ih hc]
        rfl

theorem putColumns_error {F : Funs} {r : Row} {a b : List Sel} {e : Err} (h : putColumns F r a = .error e) :
    putColumns F r (a ++ b) = .error e := by
  induction a with
  | nil => cases h
  | cons s a ih =>
    rw [putColumns] at h
    rw [List.cons_append, putColumns]
    cases hv : s.value F r with
    | error e' => rw [hv] at h; exact h
    | ok v =>
      rw [hv] at h
      cases hc : putColumns F r a with
      | ok cols => rw [hc] at h; cases h
      | error e' =>
        rw [hc] at h
        injection h with h
        subst h
        rw [ih hc]
        rfl

theorem call_error (hl : Sane env.lex) {F : Funs} {ss : List Sel} (hg : GoodArgs ss) {r : Row} {e : Err} (h : columns F r ss = .error e) :
    (call F env.lex ((ss ++ [star]).map Sel.tok) r).1 = .error e := by
  unfold call
  rw [fill_sels hl F r _ (good_append hg good_stars), putColumns_error (columns_error h)]
  rfl

theorem readBlob_error {columns : Row → Except Err Row} {a : Row → Row} {pre post : List Row} {bad : Row} {e : Err}
    (h1 : ∀ r ∈ pre, columns r = .ok (a r)) (h2 : columns bad = .error e) :
    readBlob columns (fun _ => .ok true) (pre ++ bad :: post) = pre.map a := by
  have hm : mapItems columns none (pre ++ bad :: post) = ⟨pre.map a, some e⟩ := by
    induction pre with
    | nil => rw [List.nil_append, mapItems, h2]; rfl
    | cons x pre ih =>
      rw [List.cons_append, mapItems, h1 x (List.mem_cons_self ..), ih (fun r hr => h1 r (List.mem_cons_of_mem _ hr))]
      rfl
  have hf : ∀ (l : List Row) (x : Option Err), (filterItems (fun _ => .ok true) x l).items = l := by
    intro l x
    induction l with
    | nil => rfl
    | cons r l ih => rw [filterItems]; simp only [ih]
  unfold readBlob Gen.map Gen.filter Gen.of
  simp only
  rw [hm]
  exact hf _ _

/-- **C49** (fails): a record for which a function raises ends its blob without a word: the records after it are not answered,
whatever they are, and there is no exception. -/
theorem C49_raise_fails (hre : SaneRe env.re) (hl : Sane env.lex) (hch : SaneChars env.ch) {raw b d : Str}
    (hq : Asks env raw { select := some b, source := some (.dataset d) }) (hd : GoodName env.ch d) {pre post : List Row} {bad : Row}
    (hbs : env.blobs d = .ok [pre ++ bad :: post]) {ss : List Sel} (hb : Laid env.re (piecesOf ss) b) (hg : GoodArgs ss)
    (hs : Selectable ss pre) {out : Row → Row} (hout : ∀ r ∈ pre, columns env.funs r ss = .ok (out r)) {e : Err}
    (hbad : columns env.funs bad ss = .error e) : Answers env raw (Gen.of (pre.map out)) := by
  have h := select_run hre hl hch hq hd hbs hb hg hs.ne (fun s hm a => (plain_of hs hm a).1)
  rw [List.flatMap_singleton, readBlob_error (fun r hr => call_aug hl hg (hout r hr)) (call_error hl hg hbad),
    renameStage_of hs.toNamed (readables_good _ hg),
    selectStage_of (readables_good _ hg) (fun s h => plain_of hs h) (star_not_name hs hg), List.map_map, List.map_map] at h
  rwa [List.map_congr_left (g := out) (fun r hr => ?_)] at h
  exact select_aug hs hg hr (hout r hr)

/-- **C49** (fails): a condition does not see the field `k` of the records when a call is given the name `k`: it sees the value of
the call. -/
theorem C49_shadow_fails (hre : SaneRe env.re) (hl : Sane env.lex) (hch : SaneChars env.ch) {raw : Str} {q : Query} (hq : Asks env raw q)
    {b d : Str} (hsel : q.select = some b) (hsrc : q.source = some (.dataset d)) (hd : GoodName env.ch d) {bs : List (List Row)}
    (hbs : env.blobs d = .ok bs) (hgb : q.groupBy = none) (hhv : q.having = none)
    {f kw k : Str} {args : List Sel} (hb : Laid env.re (piecesOf [.call f args (some (kw, k))]) b) (hg : GoodArgs [.call f args (some (kw, k))])
    (hs : Selectable [.call f args (some (kw, k))] bs.flatten)
    {v : Row → Datum} (hv : ∀ r ∈ bs.flatten, (Sel.call f args (some (kw, k))).value env.funs r = .ok (v r))
    {cond : Row → Bool} (hw : Where env (· = "*".toList) (bs.flatten.map (fun r => put r k (v r))) q.whereExpr cond)
    (ht : Tame env q ((bs.flatten.filter (fun r => cond (put r k (v r)))).map (fun r => [(k, v r)]))) :
    ∃ g, Answers env raw g ∧ g.raised = none ∧
      Result q ((bs.flatten.filter (fun r => cond (put r k (v r)))).map (fun r => [(k, v r)])) g.items := by
  obtain ⟨p, hp, rfl⟩ := asks_parses hre hl hch hq (by rw [hsel]; simp) (by rw [hsrc]; simp)
    (by intro d' h; rw [hsrc] at h; injection h with h; injection h with h; exact h ▸ hd)
  have hst : ∀ s ∈ [Sel.call f args (some (kw, k))], ∀ a, s ≠ .leaf .star a := fun s hm a => (plain_of hs hm a).1
  have hout : ∀ r ∈ bs.flatten, columns env.funs r [.call f args (some (kw, k))] = .ok [(k, v r)] := by
    intro r hr
    rw [columns, hv r hr]
    rfl
  have haug : ∀ r ∈ bs.flatten, aug env.funs [.call f args (some (kw, k))] r = put (put r k (v r)) "*".toList (.one (.str "*".toList)) := by
    intro r hr
    have : val env.funs r (.call f args (some (kw, k))) = v r := by unfold val; rw [hv r hr]; rfl
    unfold aug
    rw [List.map_singleton, this]
    rfl
  obtain ⟨_, h2, h3⟩ := init_actual hre hl (readables_good _ hg) hb hs.ne hst
  obtain ⟨n, hn⟩ := run_dataset hp hsel (source_dataset hsrc) (init_sels hre hl (readables_good _ hg) hb)
  have ho : openReader env (actualSelect b) d p.whereExpr = .ok (Gen.of ((bs.flatten.filter (fun r => cond (put r k (v r)))).map
      (aug env.funs [.call f args (some (kw, k))]))) := by
    refine open_raw hre hl hbs (tokens := some (([Sel.call f args (some (kw, k))] ++ [star]).map Sel.tok))
      (by unfold readerTokens; rw [if_neg h2, h3]; rfl) (fun r hr => call_aug hl hg (hout r hr)) ?_ ?_
    · intro hno r hr
      have hw : Where env (· = "*".toList) (bs.flatten.map (fun r => put r k (v r))) p.whereExpr cond := hw
      rw [hno] at hw
      rw [decide_eq_true (call_ne (by simp) (call_aug hl hg (hout r hr)))]
      exact hw _ (List.mem_map.2 ⟨r, hr, rfl⟩)
    · intro text htext
      have hw : Where env (· = "*".toList) (bs.flatten.map (fun r => put r k (v r))) p.whereExpr cond := hw
      rw [htext] at hw
      obtain ⟨ls, t, a1, a2, a3, a4, a5, a6⟩ := hw
      refine ⟨ls, t, a1, a2, a3, fun r hr => ?_⟩
      rw [← a6 (put r k (v r)) (List.mem_map.2 ⟨r, hr, rfl⟩), haug r hr]
      refine evaluate_congr env.lib env.lex ?_
      intro c hc x hx
      obtain ⟨s, hsn⟩ : ∃ s, Names x s := by
        rcases hx with hx | hx
        · exact (a4 c hc).1 x hx
        · exact (a4 c hc).2 x hx
      refine evalTerm_agree env.lex hsn (Or.inl ?_)
      rw [put_lookup_datum, if_neg (a5 s ⟨c, hc, x, hx, hsn⟩)]
  have hsr : selectStage (getFields ([Sel.call f args (some (kw, k))].map Sel.tok)) (renameStage ([Sel.call f args (some (kw, k))].map Sel.tok)
      (Gen.of ((bs.flatten.filter (fun r => cond (put r k (v r)))).map (aug env.funs [.call f args (some (kw, k))])))) =
      Gen.of ((bs.flatten.filter (fun r => cond (put r k (v r)))).map (fun r => [(k, v r)])) := by
    rw [renameStage_of hs.toNamed (readables_good _ hg), selectStage_of (readables_good _ hg) (fun s h => plain_of hs h) (star_not_name hs hg), List.map_map, List.map_map]
    congr 1
    refine List.map_congr_left (fun r hr => ?_)
    have hr := (List.mem_filter.1 hr).1
    exact select_aug hs hg hr (hout r hr)
  obtain ⟨res, h5, h6⟩ := tail_tame env ht
  refine ⟨Gen.of res, ⟨n, ?_⟩, rfl, h6⟩
  rw [hn, ho]
  show some (finishQuery env p ([Sel.call f args (some (kw, k))].map Sel.tok) _) = _
  rw [finish_plain hg hgb hhv, hsr, h5]

theorem swap_put {a b st : Str} (hab : a ≠ b) (hsa : a ≠ st) (hsb : b ≠ st) (x y z : Datum) :
    put (put (put [(a, x), (b, y)] a x) b y) st z = [(a, x), (b, y), (st, z)] := by
  simp [put, hab, hsa, hsb]

theorem swap_renames {a b st : Str} (hab : a ≠ b) (hsa : a ≠ st) (hsb : b ≠ st) (x y z : Datum) :
    performRenames [(a, b), (b, a)] [(a, x), (b, y), (st, z)] = [(st, z), (a, x)] := by
  have e1 : (b == a) = false := by simpa using Ne.symm hab
  have e2 : (st == a) = false := by simpa using Ne.symm hsa
  have e3 : (st == b) = false := by simpa using Ne.symm hsb
  have e4 : (a == b) = false := by simpa using hab
  simp [performRenames, renameOne, put, remove, List.lookup, Row.lookup, Ne.symm hab, Ne.symm hsa, Ne.symm hsb, e1, e2, e3, e4]

theorem swap_select {a b st : Str} (hab : a ≠ b) (hsa : a ≠ st) (hsb : b ≠ st) (x z : Datum) :
    toDict ([b, a].map (fun k => (k, (Row.lookup [(st, z), (a, x)] k).getD (Datum.one .none)))) = [(b, .one .none), (a, x)] := by
  have e1 : (a == b) = false := by simpa using hab
  have e2 : (st == a) = false := by simpa using Ne.symm hsa
  have e3 : (st == b) = false := by simpa using Ne.symm hsb
  simp [toDict, put, Row.lookup, Ne.symm hab, e1, e2, e3]

/-- **C49** (fails): `SELECT a AS b, b AS a` gives no value for `b`: the first value is moved over the second before that is moved. -/
theorem C49_swap_fails (hre : SaneRe env.re) (hl : Sane env.lex) (hch : SaneChars env.ch) {raw text d : Str}
    (hq : Asks env raw { select := some text, source := some (.dataset d) }) (hd : GoodName env.ch d) {a b as1 as2 : Str} (hab : a ≠ b) {x y : Datum}
    (hbs : env.blobs d = .ok [[[(a, x), (b, y)]]]) (ha : Name a) (hb : Name b) (h1 : capitals as1 = "AS".toList) (h2 : capitals as2 = "AS".toList)
    (ht : Laid env.re (piecesOf [.leaf (.field a) (some (as1, b)), .leaf (.field b) (some (as2, a))]) text) :
    Answers env raw (Gen.of [[(b, .one .none), (a, x)]]) := by
  have hg : GoodArgs [.leaf (.field a) (some (as1, b)), .leaf (.field b) (some (as2, a))] := by
    rw [GoodArgs, GoodArgs, GoodArgs, Sel.Good, Sel.Good]
    exact ⟨⟨ha, by rintro _ _ ⟨⟩; exact ⟨h1, hb⟩⟩, ⟨hb, by rintro _ _ ⟨⟩; exact ⟨h2, ha⟩⟩, trivial⟩
  have h := select_run hre hl hch hq hd hbs ht hg (by simp) (by simp)
  have hplain : ∀ s ∈ [Sel.leaf (.field a) (some (as1, b)), .leaf (.field b) (some (as2, a))], ∀ a,
      s ≠ .leaf .star a ∧ (∀ w, s ≠ .leaf (.null w) a) ∧ ∀ b w, s ≠ .leaf (.bool b w) a := by
    intro s hs c
    simp only [List.mem_cons, List.not_mem_nil, or_false] at hs
    rcases hs with rfl | rfl <;> exact ⟨nofun, nofun, nofun⟩
  have hstar : "*".toList ∉ [Sel.leaf (.field a) (some (as1, b)), .leaf (.field b) (some (as2, a))].map Sel.name := by
    intro hm
    simp only [List.map_cons, List.map_nil, List.mem_cons, List.not_mem_nil, or_false] at hm
    rcases hm with e | e
    · exact Name_ne_star hb e.symm
    · exact Name_ne_star ha e.symm
  have hc : columns env.funs [(a, x), (b, y)] [.leaf (.field a) (some (as1, b)), .leaf (.field b) (some (as2, a))] =
      .ok [(b, x), (a, y)] := by
    have e1 : Row.lookup [(a, x), (b, y)] a = some x := by rw [lookup_cons, if_pos rfl]
    have e2 : Row.lookup [(a, x), (b, y)] b = some y := by rw [lookup_cons, if_neg (Ne.symm hab), lookup_cons, if_pos rfl]
    rw [columns, columns, columns, Sel.value, Sel.value, Leaf.value, Leaf.value, e1, e2]
    rfl
  have hca := call_aug hl hg hc
  have haug : aug env.funs [.leaf (.field a) (some (as1, b)), .leaf (.field b) (some (as2, a))] [(a, x), (b, y)] =
      [(a, x), (b, y), ("*".toList, .one (.str "*".toList))] := by
    have e := (columns_val hc).1
    simp only [List.map_cons, List.map_nil, List.cons.injEq, Prod.mk.injEq, and_true] at e
    unfold aug
    simp only [List.map_cons, List.map_nil, ← e.1.2, ← e.2.2, putName, Leaf.token, List.cons_append, List.nil_append, List.foldl_cons, List.foldl_nil]
    exact swap_put hab (Name_ne_star ha) (Name_ne_star hb) _ _ _
  have hren : renames ([Sel.leaf (.field a) (some (as1, b)), .leaf (.field b) (some (as2, a))].map Sel.tok) = [(a, b), (b, a)] :=
    renames_sels (readables_good _ hg) (by simp [Sel.given, Sel.heading, Leaf.token, hab])
  have hblob : readBlob (fun r => (call env.funs env.lex (([Sel.leaf (.field a) (some (as1, b)), Sel.leaf (.field b) (some (as2, a))] ++ [star]).map
      Sel.tok) r).1) (fun _ => .ok true) [[(a, x), (b, y)]] = [[(a, x), (b, y), ("*".toList, .one (.str "*".toList))]] := by
    rw [← haug]
    exact readBlob_ok (a := fun _ => _) (c := fun _ => true) (by intro r hr; rw [List.mem_singleton] at hr; subst hr; exact hca) (fun _ _ => rfl)
  have hr : renameStage ([Sel.leaf (.field a) (some (as1, b)), .leaf (.field b) (some (as2, a))].map Sel.tok)
      (Gen.of [[(a, x), (b, y), ("*".toList, .one (.str "*".toList))]]) = Gen.of [[("*".toList, .one (.str "*".toList)), (a, x)]] := by
    unfold renameStage
    rw [hren, if_neg (by simp)]
    show Gen.of ([_].map _) = _
    rw [List.map_singleton, swap_renames hab (Name_ne_star ha) (Name_ne_star hb)]
  rw [List.flatMap_singleton, hblob, hr, selectStage_of (readables_good _ hg) hplain hstar, List.map_singleton] at h
  unfold selectRow at h
  rw [if_neg hstar] at h
  rwa [← swap_select hab (Name_ne_star ha) (Name_ne_star hb) x (.one (.str "*".toList))]

/-- **C49** (fails): aggregations of no records give no row; so `SELECT COUNT(*)` of an empty dataset does not say 0. -/
theorem C49_count_nothing_fails (hre : SaneRe env.re) (hl : Sane env.lex) (hch : SaneChars env.ch) {raw b d : Str}
    (hq : Asks env raw { select := some b, source := some (.dataset d) }) (hd : GoodName env.ch d) {bs : List (List Row)}
    (hbs : env.blobs d = .ok bs) (hempty : bs.flatten = []) {ss : List Sel} {aggs : List (Func × Str)} (hb : Laid env.re (piecesOf ss) b)
    (hr : ReadableArgs ss) (hne : ss ≠ []) (hgl : GroupList [] ss aggs) (hn : Named ss) (hdup : GroupBy.Spec.Apart aggs) :
    Answers env raw (Gen.of []) := by
  have hno : ∀ c, nonNull c ([] : List Record) = [] := fun c => by unfold nonNull; split <;> rfl
  obtain ⟨g, table, h1, h2, h3, h4⟩ := C49_total_partial hre hl hch hq rfl rfl hd hbs rfl hb hr hne hgl hn (cond := fun _ => true)
    (fun _ _ => rfl) (rs := []) (by rw [hempty]; rfl) hdup (fun ⟨a, _, ha⟩ => absurd (hno _) ha) (keep := fun _ => true)
    (fun _ _ => fun _ _ => rfl) (fun _ _ => ⟨nofun, nofun, fun h => absurd rfl h, nofun⟩)
  have ht := h3.none (fun a _ => hno _)
  subst ht
  have h4 : g.items = [] := h4
  obtain ⟨items, raised⟩ := g
  have h2 : raised = none := h2
  have h4 : items = [] := h4
  rw [h2, h4] at h1
  exact h1

end Mabel.SqlReader
