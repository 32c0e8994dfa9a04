import Verif.Model.CloudSql
import Verif.Props.Cloud
import Verif.Props.ReaderFilter

/-!
# C107: SQL statements and filters about what batch runs have stored on object storage
-/

namespace Mabel.SqlReader
open Mabel.Py Mabel.Dates Mabel.Tokens Mabel.Filters Mabel.Filters.Spec Mabel.Records Mabel.Expression Mabel.Expression.Spec Mabel.Evaluator
  Mabel.Evaluator.Spec Mabel.SqlReader.Spec Mabel.Listing Mabel.Naming
open Mabel.Sql.Spec (Query Clause Statement OrderLast SaneChars GoodName Parses view)
open Mabel.Tokenizer (Re parseText asciiRe asciiRe_sane)
open Mabel.Tokenizer.Spec (SaneRe capitals)
open Mabel.Blobs (Gen Lib Item Options Faithful delivered readBlob)
open Mabel.History (Run Daily Day DaysOf folderOf on rangeReader)
open Mabel.GroupBy (Func FewGroups extend)
open Mabel.GroupBy.Spec (nonNull groupOf Fine)
open Mabel.ObjectStore (Obj files blobBytes gcsBlobsAt)
open Mabel.Cloud (Proper Finished cloud_core gcsListed minioListed)

/-- What batch runs for many days have left on object storage: all but the statement. -/
structure LeftOn (w : Job) (first last : DateTime) (days : List DateTime) (runs : List (DateTime × Run Row)) (s : List (Obj Disk.Bytes))
    (lib : Lib Row) (rows : DateTime → List Row) (prefixes : List Str) : Prop where
  /-- the dataset is in a bucket, its last folder has no dot, and there is nothing in the folders of these days -/
  daily : ∃ ls, Daily w ls ∧ 2 ≤ ls.length ∧ (∀ l ∈ ls.getLast?, ∀ t, Paths.Piece.lit t ∈ l → '.' ∉ t) ∧
    ∀ t, (t ∈ days ∨ ∃ p ∈ runs, p.1 = t) → ∀ q ∈ files s, beneath ⟨[], folderOf ls t⟩ q = false
  tidy : ObjectStore.Tidy s
  format : w.format ≠ "text".toList
  /-- the days that are read -/
  day1 : Day first
  day2 : Day last
  le : first.seconds ≤ last.seconds
  all : DaysOf first last days
  /-- the runs, each with its day -/
  ok : ∀ p ∈ runs, Day p.1 ∧ Proper (on w p.1) p.2
  order : runs.Pairwise (fun a b => a.1 = b.1 → a.2.now.seconds < b.2.now.seconds)
  /-- the libraries -/
  codec : ∀ p ∈ runs, Faithful p.2.config.codec lib p.2.records
  /-- the records of each day -/
  valid : ∀ t ∈ days, Cloud.LastOf runs t (rows t)
  /-- the dataset may be read -/
  allowed : Reader.allowed prefixes w.dataset = true

/-- A reader opens only blobs it can read. -/
theorem openReader_readable {c : Reader.Config} {now : DateTime} {rnd : Str} {blobsAt : Paths.Posix → List Str} {k : Nat} {l : List Str}
    (h : Reader.openReader c now rnd blobsAt = .ok (k, l)) : ∀ x ∈ l, isReadable x = true := by
  unfold Reader.openReader at h
  split at h
  · cases h
  · split at h
    · cases h
    · unfold chooseBlobs at h
      split at h
      · cases h
      · simp only at h
        split at h
        · cases h
        · split at h
          · cases h
          · cases h
            exact fun x hx => (List.mem_filter.1 hx).2

/-- Nothing but the blobs is different, so what DISTINCT, ORDER BY and LIMIT need is the same. -/
theorem tame_on {env : Env} {q : Query} {rows : List Row} (ht : Tame env q rows) (v : Which) (lib : Lib Row)
    (reader : Str → Reader.Config) (now : DateTime) (rnd : Str) (s : List (Obj Disk.Bytes)) :
    Tame (onCloud env v lib reader now rnd s) q rows :=
  ⟨fun h => ⟨(ht.separated h).names, (ht.separated h).values, (ht.separated h).hashes⟩, ht.comparable, ht.few, ht.positive⟩

section
variable {w : Job} {first last : DateTime} {days : List DateTime} {runs : List (DateTime × Run Row)} {s : List (Obj Disk.Bytes)}
  {lib : Lib Row} {rows : DateTime → List Row} {prefixes : List Str}

/-- **C107**: what any statement about the dataset is about, on either service: the records that were valid for the last run of each
day that finished, day after day, each once, and nothing of the runs that were stopped. -/
theorem C107_stored_partial (v : Which) (h : LeftOn w first last days runs s lib rows prefixes) (hne : ∃ t ∈ days, rows t ≠ [])
    (now : DateTime) (rnd : Str) :
    ∃ s' bs, Cloud.afterDayRuns v.service w s runs = .ok s' ∧
      cloudBlobs v lib (daysReader w first last prefixes) now rnd s' w.dataset = .ok bs ∧ bs.flatten = days.flatMap rows := by
  obtain ⟨ls, hw, h2, hdot, hempty⟩ := h.daily
  obtain ⟨s', h1, h1', -, -, h4⟩ := cloud_core w ls hw h.format h2 hdot first last h.day1 h.day2 h.le days h.all runs h.ok h.order s
    h.tidy hempty (allTrue lib) (fun p hp => faithful_allTrue (h.codec p hp)) (fun _ _ _ _ => rfl) rows h.valid now rnd prefixes h.allowed
    (fun _ => 0)
  have hb : v.listed (rangeReader w first last prefixes) now rnd s' = gcsListed s' ∨
      v.listed (rangeReader w first last prefixes) now rnd s' = minioListed (rangeReader w first last prefixes) now rnd s' := by
    cases v
    · exact .inl rfl
    · exact .inr rfl
  obtain ⟨l, h5, h6⟩ := (h4 _ hb).1 hne
  have hl : [] ∉ l := fun hm => absurd (openReader_readable h5 _ hm) (by decide)
  unfold delivered Blobs.readSerial at h6
  rw [Cursor.readAll_repeats _ _ _ hl] at h6
  refine ⟨s', (sorted strLe l).eraseDups.map (fun b => blobRows lib b (blobBytes s' b)), by cases v <;> assumption, ?_, ?_⟩
  · unfold cloudBlobs
    have : daysReader w first last prefixes w.dataset = rangeReader w first last prefixes := rfl
    rw [this, h5]
  · simp only [blobRows_eq]
    rw [flatten_rows, h6, filterMap_rows]

variable {env : Env}

/-- **C107**: a statement that selects columns of what runs of batch writers have stored on Google Cloud Storage or MinIO.

Missing for the full property: what C97 says of datasets that are whole buckets, have a dot in their last folder or mark empty runs,
and what C49 says of statements. -/
theorem C107_select_partial (v : Which) (hre : SaneRe env.re) (hl : Sane env.lex) (hch : SaneChars env.ch)
    (h : LeftOn w first last days runs s lib rows prefixes) (hne : ∃ t ∈ days, rows t ≠ []) (now : DateTime) (rnd : Str)
    {raw : Str} {q : Query} (hq : Asks env raw q) {b : Str} (hsel : q.select = some b) (hsrc : q.source = some (.dataset w.dataset))
    (hd : GoodName env.ch w.dataset) (hgb : q.groupBy = none) (hhv : q.having = none)
    {ss : List Sel} (hb : Laid env.re (piecesOf ss) b) (hg : GoodArgs ss) (hs : Selectable ss (days.flatMap rows))
    {out : Row → Row} (hout : ∀ r ∈ days.flatMap rows, columns env.funs r ss = .ok (out r))
    {cond : Row → Bool} (hw : Where env (Hidden ss) (days.flatMap rows) q.whereExpr cond)
    (ht : Tame env q (((days.flatMap rows).filter cond).map out)) :
    ∃ s' g, Cloud.afterDayRuns v.service w s runs = .ok s' ∧
      Answers (onCloud env v lib (daysReader w first last prefixes) now rnd s') raw g ∧
      g.raised = none ∧ Result q (((days.flatMap rows).filter cond).map out) g.items := by
  obtain ⟨s', bs, h1, h2, h3⟩ := C107_stored_partial v h hne now rnd
  rw [← h3] at hs hout hw ht ⊢
  obtain ⟨g, h4⟩ := C49_select_partial (env := onCloud env v lib (daysReader w first last prefixes) now rnd s') hre hl hch hq hsel hsrc hd
    h2 hgb hhv hb hg hs hout hw (tame_on ht v lib _ now rnd s')
  exact ⟨s', g, h1, h4⟩

/-- **C107**: `SELECT *`. -/
theorem C107_star_partial (v : Which) (hre : SaneRe env.re) (hl : Sane env.lex) (hch : SaneChars env.ch)
    (h : LeftOn w first last days runs s lib rows prefixes) (hne : ∃ t ∈ days, rows t ≠ []) (now : DateTime) (rnd : Str)
    {raw : Str} {q : Query} (hq : Asks env raw q) (hsel : q.select = some "*".toList) (hsrc : q.source = some (.dataset w.dataset))
    (hd : GoodName env.ch w.dataset) (hgb : q.groupBy = none) (hhv : q.having = none)
    (hfull : q.whereExpr = none → ∀ r ∈ days.flatMap rows, r ≠ [])
    {cond : Row → Bool} (hw : Where env (fun _ => False) (days.flatMap rows) q.whereExpr cond)
    (ht : Tame env q ((days.flatMap rows).filter cond)) :
    ∃ s' g, Cloud.afterDayRuns v.service w s runs = .ok s' ∧
      Answers (onCloud env v lib (daysReader w first last prefixes) now rnd s') raw g ∧
      g.raised = none ∧ Result q ((days.flatMap rows).filter cond) g.items := by
  obtain ⟨s', bs, h1, h2, h3⟩ := C107_stored_partial v h hne now rnd
  rw [← h3] at hfull hw ht ⊢
  obtain ⟨g, h4⟩ := C49_star_partial (env := onCloud env v lib (daysReader w first last prefixes) now rnd s') hre hl hch hq hsel hsrc hd
    h2 hgb hhv hfull hw (tame_on ht v lib _ now rnd s')
  exact ⟨s', g, h1, h4⟩

/-- **C107**: GROUP BY. -/
theorem C107_group_partial (v : Which) (hre : SaneRe env.re) (hl : Sane env.lex) (hch : SaneChars env.ch)
    (h : LeftOn w first last days runs s lib rows prefixes) (hne : ∃ t ∈ days, rows t ≠ []) (now : DateTime) (rnd : Str)
    {raw : Str} {q : Query} (hq : Asks env raw q) {b : Str} (hsel : q.select = some b) (hsrc : q.source = some (.dataset w.dataset))
    (hd : GoodName env.ch w.dataset) {gtext : Str} {columns : List Str} (hgb : q.groupBy = some gtext) (hcols : ColumnList columns gtext)
    {ss : List Sel} {aggs : List (Func × Str)} (hb : Laid env.re (piecesOf ss) b) (hr : ReadableArgs ss) (hss : ss ≠ [])
    (hgl : GroupList columns ss aggs) (hn : Named ss)
    {cond : Row → Bool} (hw : Where env (fun k => k = "*".toList ∨ ∃ a ∈ aggs, k = a.1.name) (days.flatMap rows) q.whereExpr cond)
    {rs : List Record} (hrs : ((days.flatMap rows).filter cond).map (only (columns ++ aggs.map Prod.snd)) = rs.map plain)
    (hhas : ∀ r ∈ rs, ∀ c ∈ columns, r.lookup c ≠ none)
    (hf : GroupBy.Spec.Faithful env.groupHash columns rs) (hfew : FewGroups columns rs) (hdup : GroupBy.Spec.Apart aggs)
    (hfine : ∀ r ∈ rs, (∃ a ∈ aggs, nonNull a.2 (groupOf columns rs r) ≠ []) → ∀ f c, (f, c) ∈ aggs → Fine f (nonNull c (groupOf columns rs r)))
    {keep : Row → Bool} (hhv : ∀ table, Table columns aggs rs table → Having env table q.having keep)
    (ht : ∀ table, Table columns aggs rs table → Tame env q ((table.filter keep).map (shown ss))) :
    ∃ s' g table, Cloud.afterDayRuns v.service w s runs = .ok s' ∧
      Answers (onCloud env v lib (daysReader w first last prefixes) now rnd s') raw g ∧
      g.raised = none ∧ Table columns aggs rs table ∧ Result q ((table.filter keep).map (shown ss)) g.items := by
  obtain ⟨s', bs, h1, h2, h3⟩ := C107_stored_partial v h hne now rnd
  rw [← h3] at hw hrs
  obtain ⟨g, table, h4⟩ := C49_group_partial (env := onCloud env v lib (daysReader w first last prefixes) now rnd s') hre hl hch hq hsel hsrc hd
    h2 hgb hcols hb hr hss hgl hn hw hrs hhas hf hfew hdup hfine hhv
    (fun t h => tame_on (ht t h) v lib _ now rnd s')
  exact ⟨s', g, table, h1, h4⟩

/-- **C107**: aggregates without GROUP BY. -/
theorem C107_total_partial (v : Which) (hre : SaneRe env.re) (hl : Sane env.lex) (hch : SaneChars env.ch)
    (h : LeftOn w first last days runs s lib rows prefixes) (hne : ∃ t ∈ days, rows t ≠ []) (now : DateTime) (rnd : Str)
    {raw : Str} {q : Query} (hq : Asks env raw q) {b : Str} (hsel : q.select = some b) (hsrc : q.source = some (.dataset w.dataset))
    (hd : GoodName env.ch w.dataset) (hgb : q.groupBy = none)
    {ss : List Sel} {aggs : List (Func × Str)} (hb : Laid env.re (piecesOf ss) b) (hr : ReadableArgs ss) (hss : ss ≠ [])
    (hgl : GroupList [] ss aggs) (hn : Named ss)
    {cond : Row → Bool} (hw : Where env (fun k => k = "*".toList ∨ ∃ a ∈ aggs, k = a.1.name) (days.flatMap rows) q.whereExpr cond)
    {rs : List Record} (hrs : ((days.flatMap rows).filter cond).map (only ("*".toList :: aggs.map Prod.snd)) = rs.map plain)
    (hdup : GroupBy.Spec.Apart aggs)
    (hfine : (∃ a ∈ aggs, nonNull a.2 rs ≠ []) → ∀ f c, (f, c) ∈ aggs → Fine f (nonNull c rs))
    {keep : Row → Bool} (hhv : ∀ table, Total aggs rs table → Having env table q.having keep)
    (ht : ∀ table, Total aggs rs table → Tame env q ((table.filter keep).map (shown ss))) :
    ∃ s' g table, Cloud.afterDayRuns v.service w s runs = .ok s' ∧
      Answers (onCloud env v lib (daysReader w first last prefixes) now rnd s') raw g ∧
      g.raised = none ∧ Total aggs rs table ∧ Result q ((table.filter keep).map (shown ss)) g.items := by
  obtain ⟨s', bs, h1, h2, h3⟩ := C107_stored_partial v h hne now rnd
  rw [← h3] at hw hrs
  obtain ⟨g, table, h4⟩ := C49_total_partial (env := onCloud env v lib (daysReader w first last prefixes) now rnd s') hre hl hch hq hsel hsrc hd
    h2 hgb hb hr hss hgl hn hw hrs hdup hfine hhv
    (fun t h => tame_on (ht t h) v lib _ now rnd s')
  exact ⟨s', g, table, h1, h4⟩

/-- **C107**: a filter of lists of tuples.  After any history of runs that may be stopped at any moment, a reader of these days
with the filter delivers, of what the last finished run of each day stored, exactly the records that meet all the predicates
of one of the lists, day after day, each once and in the order they were written. -/
theorem C107_filter_lists_partial (v : Which) (h : LeftOn w first last days runs s lib rows prefixes) (hne : ∃ t ∈ days, rows t ≠ []) (now : DateTime)
    (rnd : Str) {ass : List (List Atom)} (hass : ass ≠ []) (happ : ∀ t ∈ days, ∀ r ∈ rows t, Applies env.lib ass r)
    {meets : Row → Bool} (hm : ∀ t ∈ days, ∀ r ∈ rows t, meets r = true ↔ Meets env.lib ass r) :
    ∃ s' g, Cloud.afterDayRuns v.service w s runs = .ok s' ∧
      openFiltered (onCloud env v lib (daysReader w first last prefixes) now rnd s') "*".toList w.dataset (.value (nested ass)) = .ok g ∧
      g.raised = none ∧ g.items = (days.flatMap rows).filter meets := by
  obtain ⟨s', bs, h1, h2, h3⟩ := C107_stored_partial v h hne now rnd
  have hin : ∀ r ∈ bs.flatten, ∃ t ∈ days, r ∈ rows t := by
    intro r hr
    rw [h3] at hr
    exact List.mem_flatMap.1 hr
  refine ⟨s', Gen.of ((bs.flatten.filter meets).map id), h1, ?_, rfl, ?_⟩
  · refine open_pred (env := onCloud env v lib (daysReader w first last prefixes) now rnd s') (Or.inr rfl) (tokens_star _) h2
      (fun r _ => rfl) (fun r hr => ?_)
    obtain ⟨t, ht, hr⟩ := hin r hr
    exact verdict_nested hass (happ t ht r hr) (hm t ht r hr)
  · show List.map id _ = _
    rw [List.map_id, h3]

/-- **C107**: a filter that is a text: the condition written in it. -/
theorem C107_filter_text_partial (v : Which) (hre : SaneRe env.re) (hl : Sane env.lex) (h : LeftOn w first last days runs s lib rows prefixes)
    (hne : ∃ t ∈ days, rows t ≠ []) (now : DateTime) (rnd : Str) {text : Str} {cond : Row → Bool}
    (hw : Where env (fun _ => False) (days.flatMap rows) (some text) cond) :
    ∃ s' g, Cloud.afterDayRuns v.service w s runs = .ok s' ∧
      openFiltered (onCloud env v lib (daysReader w first last prefixes) now rnd s') "*".toList w.dataset (.text text) = .ok g ∧
      g.raised = none ∧ g.items = (days.flatMap rows).filter cond := by
  obtain ⟨s', bs, h1, h2, h3⟩ := C107_stored_partial v h hne now rnd
  rw [← h3] at hw ⊢
  refine ⟨s', Gen.of ((bs.flatten.filter cond).map id), h1, ?_, rfl, List.map_id _⟩
  exact open_where (env := onCloud env v lib (daysReader w first last prefixes) now rnd s') (w := some text) (cond := cond)
    (hidden := fun _ => False) hre hl h2 hw (tokens_star _)
    (fun _ _ => rfl) nofun (fun _ _ _ _ _ => rfl)

end

/-- **C107**: if no run for these days has finished, every statement about the dataset that is not refused raises DataNotFoundError
and gives no record, no matter how many runs were stopped, and when. -/
theorem C107_nothing_finished_partial {env : Env} (v : Which) {w : Job} {first last : DateTime} {days : List DateTime}
    {runs : List (DateTime × Run Row)} {s : List (Obj Disk.Bytes)} {lib : Lib Row} {prefixes : List Str}
    (h : LeftOn w first last days runs s lib (fun _ => []) prefixes) (now : DateTime) (rnd : Str)
    {raw : Str} {p : Sql.Parsed} (hp : Parses env.re env.lex env.ch raw (.ok p)) (hsrc : (view p).source = some (.dataset w.dataset)) :
    ∃ s', Cloud.afterDayRuns v.service w s runs = .ok s' ∧
      ∀ g, Answers (onCloud env v lib (daysReader w first last prefixes) now rnd s') raw g → g.items = [] ∧ g.raised = some .dataNotFound := by
  obtain ⟨ls, hw, h2, hdot, hempty⟩ := h.daily
  obtain ⟨s', h1, h1', -, -, h4⟩ := cloud_core w ls hw h.format h2 hdot first last h.day1 h.day2 h.le days h.all runs h.ok h.order s
    h.tidy hempty (allTrue lib) (fun p hp => faithful_allTrue (h.codec p hp)) (fun _ _ _ _ => rfl) (fun _ => []) h.valid now rnd prefixes h.allowed
    (fun _ => 0)
  have hb : v.listed (rangeReader w first last prefixes) now rnd s' = gcsListed s' ∨
      v.listed (rangeReader w first last prefixes) now rnd s' = minioListed (rangeReader w first last prefixes) now rnd s' := by
    cases v
    · exact .inl rfl
    · exact .inr rfl
  have h5 := (h4 _ hb).2 (fun _ _ => rfl)
  refine ⟨s', by cases v <;> assumption, fun g hg => ?_⟩
  have h3 : cloudBlobs v lib (daysReader w first last prefixes) now rnd s' w.dataset = .error .dataNotFound := by
    unfold cloudBlobs
    have : daysReader w first last prefixes w.dataset = rangeReader w first last prefixes := rfl
    rw [this, h5]
  have := answers_fail (env := onCloud env v lib (daysReader w first last prefixes) now rnd s') hg hp hsrc h3
  subst this
  exact ⟨rfl, rfl⟩

/-! ## Concrete runs and statements -/

section
open Mabel.EndToEnd (zJob)
open Mabel.History (feb28 feb29 mar1 feb28_day feb29_day mar1_day three_days daily)
open Mabel.Cloud (demoObjs demoObjs_tidy demo_dot)
open Mabel.Sql (asciiChars asciiChars_sane good_of body_of)

/-- The first and the third run come to their end; the second dies after its first object, the fourth before the marker. -/
def cloudRuns : List (DateTime × Run Row) :=
  [(feb28, rowRun1), (mar1, { rowRun2 with stop := 1 }), (mar1, rowRun3), (feb28, { rowRun4 with stop := 1 })]

theorem cloud_last : ∀ t ∈ [feb28, feb29, mar1], Cloud.LastOf cloudRuns t (rowsOn t) := by
  intro t ht
  simp only [List.mem_cons, List.not_mem_nil, or_false] at ht
  rcases ht with rfl | rfl | rfl
  · refine Or.inl ⟨[], rowRun1, [(mar1, { rowRun2 with stop := 1 }), (mar1, rowRun3), (feb28, { rowRun4 with stop := 1 })], rfl,
      ⟨rfl, by decide +kernel, by decide +kernel⟩, ?_, by decide +kernel⟩
    intro p hp e
    simp only [List.mem_cons, List.not_mem_nil, or_false] at hp
    rcases hp with rfl | rfl | rfl
    · exact absurd e (by decide)
    · exact absurd e (by decide)
    · exact fun h => absurd h.2.2 (by decide +kernel)
  · refine Or.inr ⟨?_, by decide +kernel⟩
    intro p hp e
    simp only [cloudRuns, List.mem_cons, List.not_mem_nil, or_false] at hp
    rcases hp with rfl | rfl | rfl | rfl <;> exact absurd e (by decide)
  · refine Or.inl ⟨[(feb28, rowRun1), (mar1, { rowRun2 with stop := 1 })], rowRun3, [(feb28, { rowRun4 with stop := 1 })], rfl,
      ⟨rfl, by decide +kernel, by decide +kernel⟩, ?_, by decide +kernel⟩
    intro p hp e
    simp only [List.mem_cons, List.not_mem_nil, or_false] at hp
    rw [hp] at e
    exact absurd e (by decide)

/-- Non-vacuity: what these runs have left. -/
theorem cloud_left : LeftOn zJob feb28 mar1 [feb28, feb29, mar1] cloudRuns demoObjs rowLib rowsOn ["tests/".toList] where
  daily := by
    refine ⟨demoFolders, daily, by decide, demo_dot, ?_⟩
    have key : ∀ t ∈ [feb28, feb29, mar1], ∀ q ∈ files demoObjs, beneath ⟨[], folderOf demoFolders t⟩ q = false := by
      decide +kernel
    rintro t (ht | ⟨p, hp, rfl⟩)
    · exact key t ht
    · refine key _ ?_
      simp only [cloudRuns, List.mem_cons, List.not_mem_nil, or_false] at hp
      rcases hp with rfl | rfl | rfl | rfl <;> simp
  tidy := demoObjs_tidy
  format := by decide
  day1 := feb28_day
  day2 := mar1_day
  le := by decide +kernel
  all := three_days
  ok := by
    have key : ∀ (r : Run Row) (n : Nat) (t : DateTime), r ∈ [rowRun1, rowRun2, rowRun3, rowRun4] →
        Proper (on zJob t) ({ r with stop := n } : Run Row) := by
      intro r n t hr
      have h := row_run_ok t r hr
      have hm : ∀ r ∈ [rowRun1, rowRun2, rowRun3, rowRun4], r.records.filter r.config.valid ≠ [] := by decide +kernel
      exact ⟨⟨h.now, h.format, h.hex, h.order⟩, Or.inl (hm r hr)⟩
    intro p hp
    simp only [cloudRuns, List.mem_cons, List.not_mem_nil, or_false] at hp
    rcases hp with rfl | rfl | rfl | rfl
    · exact ⟨feb28_day, key rowRun1 1000 _ (by simp)⟩
    · exact ⟨mar1_day, key rowRun2 1 _ (by simp)⟩
    · exact ⟨mar1_day, key rowRun3 1000 _ (by simp)⟩
    · exact ⟨feb28_day, key rowRun4 1 _ (by simp)⟩
  order := by
    have : cloudRuns.Pairwise (fun a b => a.1 = b.1 → a.2.now.seconds < b.2.now.seconds) := by
      unfold cloudRuns
      decide +kernel
    exact this
  codec := by
    intro p hp
    have : ∀ p ∈ cloudRuns, p.2.records ⊆ storedRows := by
      intro p hp
      simp only [cloudRuns, List.mem_cons, List.not_mem_nil, or_false] at hp
      rcases hp with rfl | rfl | rfl | rfl <;> decide +kernel
    refine Faithful.mono ?_ (this p hp)
    simp only [cloudRuns, List.mem_cons, List.not_mem_nil, or_false] at hp
    rcases hp with rfl | rfl | rfl | rfl <;> exact row_faithful
  valid := cloud_last
  allowed := by decide

/-- Non-vacuity of `C107_star_partial`: from the runs and the text of the statement to the records, on both services. -/
example (v : Which) (now : DateTime) (rnd : Str) : ∃ s' g, Cloud.afterDayRuns v.service zJob demoObjs cloudRuns = .ok s' ∧
    Answers (onCloud sampleEnv v rowLib (daysReader zJob feb28 mar1 ["tests/".toList]) now rnd s') rawStored g ∧
    g.raised = none ∧ g.items = [sampleRow 1 "x", sampleRow 3 "y"] := by
  obtain ⟨s', g, h1, h2, h3, h4⟩ := C107_star_partial (env := sampleEnv) v asciiRe_sane sampleLex_sane asciiChars_sane cloud_left row_some now rnd
    asks_stored rfl rfl (good_of _ (by decide +kernel)) rfl rfl nofun (by rw [row_days]; exact where_pos (fun h => h))
    (plain_query _ _ rfl rfl rfl)
  refine ⟨s', g, h1, h2, h3, ?_⟩
  have h4 : g.items = _ := h4
  rw [h4, row_days]
  decide +kernel

/-- Non-vacuity of `C107_select_partial`. -/
example (v : Which) (now : DateTime) (rnd : Str) : ∃ s' g, Cloud.afterDayRuns v.service zJob demoObjs cloudRuns = .ok s' ∧
    Answers (onCloud sampleEnv v rowLib (daysReader zJob feb28 mar1 ["tests/".toList]) now rnd s') rawStored2 g ∧
    g.raised = none ∧ g.items = [[("a".toList, .one (.int 1)), ("c".toList, .one (.str "X".toList))],
      [("a".toList, .one (.int 3)), ("c".toList, .one (.str "Y".toList))]] := by
  obtain ⟨s', g, h1, h2, h3, h4⟩ := C107_select_partial (env := sampleEnv) v asciiRe_sane sampleLex_sane asciiChars_sane cloud_left row_some now rnd
    asks_stored2 rfl rfl (good_of _ (by decide +kernel)) rfl rfl sels_laid sels_good (by rw [row_days]; exact sels_selectable) (out := upperB)
    (by
      rw [row_days]
      intro r hr
      simp only [List.mem_cons, List.not_mem_nil, or_false] at hr
      rcases hr with rfl | rfl | rfl <;> rfl)
    (by
      rw [row_days]
      refine where_pos ?_
      rintro (h | ⟨s, hs, h⟩)
      · exact absurd h (by decide)
      · simp only [sampleSels, List.mem_cons, List.not_mem_nil, or_false] at hs
        rcases hs with rfl | rfl
        · exact h
        · exact absurd (show "c".toList = "a".toList from h) (by decide))
    (plain_query _ _ rfl rfl rfl)
  refine ⟨s', g, h1, h2, h3, ?_⟩
  have h4 : g.items = _ := h4
  rw [h4, row_days]
  decide +kernel

/-- Non-vacuity of `C107_group_partial`. -/
example (v : Which) (now : DateTime) (rnd : Str) : ∃ s' g table, Cloud.afterDayRuns v.service zJob demoObjs cloudRuns = .ok s' ∧
    Answers (onCloud sampleEnv v rowLib (daysReader zJob feb28 mar1 ["tests/".toList]) now rnd s') rawStored3 g ∧
    g.raised = none ∧ Table ["a".toList] [(.count, "*".toList)] groupRecords table ∧
    g.items = (table.filter positive).map (shown groupSels) := by
  obtain ⟨s', g, table, h0, h1, h2, h3, h4⟩ := C107_group_partial (env := sampleEnv) v asciiRe_sane sampleLex_sane asciiChars_sane cloud_left row_some now rnd
    asks_stored3 rfl rfl
    (good_of _ (by decide +kernel)) rfl (.one (a := []) (b := []) name_a b0 b0) group_laid group_readable (by simp [groupSels])
    (aggs := [(.count, "*".toList)]) (.column (List.mem_singleton.2 rfl) (.agg (.star (by decide)) .nil))
    ⟨by decide +kernel, by decide +kernel, by decide +kernel⟩ (cond := fun _ => true) (fun _ _ => rfl) (rs := groupRecords)
    (by rw [row_days]; rfl)
    (by decide +kernel) (by unfold GroupBy.Spec.Faithful; decide +kernel) (few_of (rs := groupRecords) (by decide)) (by decide)
    (by
      intro r _ _ f c h
      rw [List.mem_singleton] at h
      cases h
      trivial)
    (keep := positive)
    (by
      intro table ht
      refine ⟨posText, _, pos_laid, by decide, pos_simple, pos_written, fun row hrow => ?_⟩
      obtain ⟨r, hr, hc, _⟩ := ht.right row hrow
      have hl : row.lookup "a".toList = some (datum (r.get "a".toList)) := by
        have := List.all_eq_true.1 hc _ (List.mem_singleton.2 rfl)
        simpa using this
      have hi : ∃ i, r.get "a".toList = .int i := by
        have : ∀ r ∈ groupRecords, r.get "a".toList = .int 1 ∨ r.get "a".toList = .int 3 ∨ r.get "a".toList = .int 0 := by decide +kernel
        rcases this r hr with h | h | h <;> exact ⟨_, h⟩
      obtain ⟨i, hi⟩ := hi
      rw [hi] at hl
      exact pos_evaluate hl)
    (fun _ _ => plain_query _ _ rfl rfl rfl)
  exact ⟨s', g, table, h0, h1, h2, h3, h4⟩

/-- Non-vacuity of `C107_total_partial`. -/
example (v : Which) (now : DateTime) (rnd : Str) : ∃ s' g, Cloud.afterDayRuns v.service zJob demoObjs cloudRuns = .ok s' ∧
    Answers (onCloud sampleEnv v rowLib (daysReader zJob feb28 mar1 ["tests/".toList]) now rnd s') rawStored4 g ∧
    g.raised = none ∧ g.items = [[("n".toList, .one (.int 3))]] := by
  obtain ⟨s', g, table, h0, h1, h2, h3, h4⟩ := C107_total_partial (env := sampleEnv) v asciiRe_sane sampleLex_sane asciiChars_sane cloud_left row_some now rnd
    asks_stored4 rfl rfl (good_of _ (by decide +kernel)) rfl total_laid total_readable (by simp [totalSels])
    (aggs := [(.count, "*".toList)]) (.agg (.star (by decide)) .nil)
    ⟨by decide +kernel, by decide +kernel, by decide +kernel⟩ (cond := fun _ => true) (fun _ _ => rfl) (rs := totalRecords)
    (by rw [row_days]; rfl) (by decide)
    (by
      intro _ f c h
      rw [List.mem_singleton] at h
      cases h
      trivial)
    (keep := fun _ => true) (fun _ _ => fun _ _ => rfl) (fun _ _ => plain_query _ _ rfl rfl rfl)
  refine ⟨s', g, h0, h1, h2, ?_⟩
  obtain ⟨row, rfl, h5⟩ := h3.one ⟨_, List.mem_singleton.2 rfl, by decide +kernel⟩
  obtain ⟨x, h6, h7⟩ := h5 _ _ (List.mem_singleton.2 rfl)
  have h7 : x = .val (.int 3) := h7
  have h4 : g.items = [shown totalSels row] := h4
  subst h7
  have h6 : row.lookup "COUNT(*)".toList = some (.one (.int 3)) := h6
  have : shown totalSels row = [("n".toList, .one (.int 3))] := by
    show [("n".toList, (row.lookup "COUNT(*)".toList).getD (.one .none))] = _
    rw [h6]
    rfl
  rw [h4, this]

/-- Non-vacuity of `C107_filter_lists_partial`. -/
example (v : Which) (now : DateTime) (rnd : Str) : ∃ s' g, Cloud.afterDayRuns v.service zJob demoObjs cloudRuns = .ok s' ∧
    openFiltered (onCloud sampleEnv v rowLib (daysReader zJob feb28 mar1 ["tests/".toList]) now rnd s') "*".toList zJob.dataset
      (.value (nested demoAtoms)) = .ok g ∧ g.raised = none ∧ g.items = [sampleRow 3 "y", sampleRow 0 "z"] := by
  have happ : ∀ r ∈ [sampleRow 1 "x", sampleRow 3 "y", sampleRow 0 "z"], ∀ as ∈ demoAtoms, ∀ a ∈ as,
      (verdict sampleEnv.lib a.tuple r).isOk = true := by decide +kernel
  have hin : ∀ t ∈ [feb28, feb29, mar1], ∀ r ∈ rowsOn t, r ∈ [sampleRow 1 "x", sampleRow 3 "y", sampleRow 0 "z"] := by decide +kernel
  obtain ⟨s', g, h1, h2, h3, h4⟩ := C107_filter_lists_partial (env := sampleEnv) v cloud_left row_some now rnd (ass := demoAtoms) (by decide)
    (fun t ht r hr as has a ha => by
      have := happ r (hin t ht r hr) as has a ha
      cases hv : verdict sampleEnv.lib a.tuple r with
      | error e => rw [hv] at this; cases this
      | ok b => exact ⟨b, rfl⟩)
    (meets := fun r => demoAtoms.any (fun as => as.all (fun a => decide (verdict sampleEnv.lib a.tuple r = .ok true))))
    (fun t ht r hr => by simp [Meets])
  refine ⟨s', g, h1, h2, h3, ?_⟩
  rw [h4, row_days]
  decide +kernel

/-- Non-vacuity of `C107_filter_text_partial`. -/
example (v : Which) (now : DateTime) (rnd : Str) : ∃ s' g, Cloud.afterDayRuns v.service zJob demoObjs cloudRuns = .ok s' ∧
    openFiltered (onCloud sampleEnv v rowLib (daysReader zJob feb28 mar1 ["tests/".toList]) now rnd s') "*".toList zJob.dataset
      (.text "a > 0".toList) = .ok g ∧ g.raised = none ∧ g.items = [sampleRow 1 "x", sampleRow 3 "y"] := by
  obtain ⟨s', g, h1, h2, h3, h4⟩ := C107_filter_text_partial (env := sampleEnv) v asciiRe_sane sampleLex_sane cloud_left row_some now rnd
    (by rw [row_days]; exact where_pos (fun h => h))
  refine ⟨s', g, h1, h2, h3, ?_⟩
  rw [h4, row_days]
  decide +kernel

/-- What is left where only the runs that died have been. -/
theorem dead_left : LeftOn zJob feb28 mar1 [feb28, feb29, mar1] [(mar1, { rowRun2 with stop := 1 }), (feb28, { rowRun4 with stop := 1 })]
    demoObjs rowLib (fun _ => []) ["tests/".toList] :=
  have hsub : ∀ p ∈ [(mar1, { rowRun2 with stop := 1 }), (feb28, ({ rowRun4 with stop := 1 } : Run Row))], p ∈ cloudRuns := by
    intro p hp
    simp only [List.mem_cons, List.not_mem_nil, or_false] at hp
    rcases hp with rfl | rfl <;> simp [cloudRuns]
  { cloud_left with
    daily := by
      obtain ⟨ls, h1, h2, h3, h4⟩ := cloud_left.daily
      exact ⟨ls, h1, h2, h3, fun t ht => h4 t (ht.imp id (fun ⟨p, hp, e⟩ => ⟨p, hsub p hp, e⟩))⟩
    ok := fun p hp => cloud_left.ok p (hsub p hp)
    order := by simp; decide
    codec := fun p hp => cloud_left.codec p (hsub p hp)
    valid := by
      refine fun t _ => Or.inr ⟨?_, rfl⟩
      intro p hp _
      simp only [List.mem_cons, List.not_mem_nil, or_false] at hp
      rcases hp with rfl | rfl <;> exact fun h => absurd h.2.2 (by decide +kernel) }

/-- Non-vacuity of `C107_nothing_finished_partial`: the runs were stopped, and the statement can be read. -/
example (v : Which) (now : DateTime) (rnd : Str) :
    ∃ s', Cloud.afterDayRuns v.service zJob demoObjs [(mar1, { rowRun2 with stop := 1 }), (feb28, { rowRun4 with stop := 1 })] = .ok s' ∧
      ∀ g, Answers (onCloud sampleEnv v rowLib (daysReader zJob feb28 mar1 ["tests/".toList]) now rnd s') rawStored4 g →
        g.items = [] ∧ g.raised = some .dataNotFound := by
  obtain ⟨p, hp, hv⟩ := asks_parses asciiRe_sane sampleLex_sane asciiChars_sane asks_stored4 (by simp) (by simp)
    (by intro d' h; injection h with h; injection h with h; exact h ▸ good_of _ (by decide +kernel))
  exact C107_nothing_finished_partial (env := sampleEnv) v dead_left now rnd hp (by rw [hv]; rfl)

end

end Mabel.SqlReader
