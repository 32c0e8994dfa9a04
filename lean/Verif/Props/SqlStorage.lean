import Verif.Model.SqlStorage
import Verif.Props.SqlGroup
import Verif.Props.SqlSamples
import Verif.Props.Days

/-!
# C88: SQL statements about what batch runs have stored
-/

namespace Mabel.SqlReader
open Mabel.Py Mabel.Dates Mabel.Tokens Mabel.Filters Mabel.Records Mabel.Expression Mabel.Expression.Spec Mabel.Evaluator
  Mabel.Evaluator.Spec Mabel.SqlReader.Spec Mabel.Listing Mabel.Naming
open Mabel.Sql.Spec (Query Clause Statement OrderLast SaneChars GoodName Parses view)
open Mabel.Tokenizer (Re parseText asciiRe asciiRe_sane)
open Mabel.Tokenizer.Spec (SaneRe capitals)
open Mabel.Blobs (Gen Lib Item Options Faithful delivered Names delivered_eq decompress members parse stages readBlob mapItems filterItems)
open Mabel.History (Run Daily Day DaysOf LastOf Fresh folderOf on afterDayRuns rangeReader range_core)
open Mabel.GroupBy (Func FewGroups extend)
open Mabel.GroupBy.Spec (nonNull groupOf Fine)
open Mabel.Disk (Disk read)

/-! ## Records that are not looked at -/

/-- The libraries, for records that all count as true. -/
def allTrue (lib : Lib ρ) : Lib ρ := { lib with truthy := fun _ => true }

theorem parse_allTrue (lib : Lib ρ) (p : Blobs.Parser) (x : Item ρ) : parse (allTrue lib) p x = parse lib p x := by
  cases p <;> cases x <;> rfl

theorem members_allTrue (lib : Lib ρ) (f g : Blobs.Decompressor → Blobs.Bytes → Gen (Item ρ)) (h : ∀ d b, f d b = g d b) :
    ∀ files, members f (allTrue lib) files = members g lib files
  | [] => rfl
  | (name, bytes) :: rest => by
    rw [members, members, members_allTrue lib f g h rest]
    have : parse (allTrue lib) = parse lib := by
      funext p x
      exact parse_allTrue lib p x
    simp only [h, this]

theorem decompress_allTrue (lib : Lib ρ) : ∀ (n : Nat) (d : Blobs.Decompressor) (b : Blobs.Bytes),
    decompress (allTrue lib) n d b = decompress lib n d b
  | 0, d, b => by cases d <;> rfl
  | n + 1, d, b => by
    cases d with
    | unzip =>
      rw [decompress, decompress]
      show (match lib.unzip b with
        | .error e => Blobs.Gen.fail e
        | .ok files => members (decompress (allTrue lib) n) (allTrue lib) files) = _
      cases lib.unzip b with
      | error e => rfl
      | ok files => exact members_allTrue lib _ _ (decompress_allTrue lib n) files
    | _ => rfl

theorem faithful_allTrue {codec : Writer.Codec ρ} {lib : Lib ρ} {l : List ρ} (h : Faithful codec lib l) :
    Faithful codec (allTrue lib) l :=
  ⟨h.json, h.no_lf, h.no_cr, h.zstd, h.parquet⟩

/-- What becomes of the records does not depend on what becomes of other bytes. -/
theorem filterItems_rows {p q : Item Row → Except Err Bool} (hp : ∀ y, p (.row y) = .ok true) (hq : ∀ y, q (.row y) = .ok true)
    (hp' : ∀ b, ∃ k, p (.raw b) = .ok k) (hq' : ∀ b, ∃ k, q (.raw b) = .ok k) (r s : Option Err) : ∀ l : List (Item Row),
    (filterItems p r l).items.filterMap rowOf = (filterItems q s l).items.filterMap rowOf
  | [] => rfl
  | .row y :: l => by
    simp only [filterItems, hp, hq, List.filterMap_cons, rowOf]
    rw [filterItems_rows hp hq hp' hq' r s l]
  | .raw b :: l => by
    obtain ⟨k, hk⟩ := hp' b
    obtain ⟨m, hm⟩ := hq' b
    have ih := filterItems_rows hp hq hp' hq' r s l
    simp only [filterItems, hk, hm]
    cases k <;> cases m <;> simpa [List.filterMap_cons, rowOf] using ih

/-- The records of a blob are what a reader without a filter delivers if all records count as true. -/
theorem blobRows_eq (lib : Lib Row) (name : Str) (fetched : Except Err Blobs.Bytes) :
    blobRows lib name fetched = (Blobs.readBlob (allTrue lib) {} name fetched).filterMap rowOf := by
  unfold blobRows Blobs.readBlob
  have hx : Blobs.extensionOf { filter := some (fun _ : Item Row => .ok true) } name = Blobs.extensionOf ({} : Options Row) name := rfl
  rw [hx]
  cases Blobs.extensionOf ({} : Options Row) name with
  | error e => rfl
  | ok o =>
    cases o with
    | none => rfl
    | some ext =>
      simp only
      cases Blobs.handler ext with
      | none => rfl
      | some h =>
        obtain ⟨d, p, c⟩ := h
        cases fetched with
        | error e => rfl
        | ok bytes =>
          simp only
          unfold stages
          rw [decompress_allTrue]
          have : parse (allTrue lib) = parse lib := by
            funext p x
            exact parse_allTrue lib p x
          rw [this]
          exact filterItems_rows (fun _ => rfl) (fun _ => rfl) (fun _ => ⟨_, rfl⟩) (fun _ => ⟨_, rfl⟩) _ _ _

theorem filterMap_rows : ∀ l : List Row, (l.map Item.row).filterMap rowOf = l
  | [] => rfl
  | r :: l => by
    rw [List.map_cons, List.filterMap_cons]
    simp only [rowOf]
    rw [filterMap_rows l]

theorem flatten_rows (f : Str → List (Item Row)) : ∀ l : List Str,
    (l.map (fun b => (f b).filterMap rowOf)).flatten = (l.flatMap f).filterMap rowOf
  | [] => rfl
  | b :: l => by
    rw [List.map_cons, List.flatten_cons, List.flatMap_cons, List.filterMap_append, flatten_rows f l]

/-! ## What statements are about -/

/-- `SqlReader(…, start_date=first, end_date=last)`: its reader of a dataset (with the partitions of this one). -/
def daysReader (w : Job) (first last : DateTime) (prefixes : List Str) (dataset : Str) : Reader.Config where
  dataset := dataset
  partitions := w.partitions
  filter := none
  start := .date first.year first.month first.day
  stop := .date last.year last.month last.day
  freshness := []
  prefixes := prefixes

/-- What batch runs for many days have left: all but the statement. -/
structure Left (w : Job) (first last : DateTime) (days : List DateTime) (runs : List (DateTime × Run Row)) (d : Disk)
    (lib : Lib Row) (rows : DateTime → List Row) (prefixes : List Str) : Prop where
  /-- the dataset, and the format -/
  daily : ∃ ls, Daily w ls ∧ ∀ t, (t ∈ days ∨ ∃ p ∈ runs, p.1 = t) → Fresh (folderOf ls t) d
  format : w.format ≠ "text".toList
  /-- the days that are read -/
  day1 : Day first
  day2 : Day last
  le : first.seconds ≤ last.seconds
  all : DaysOf first last days
  /-- the runs, each with its day -/
  ok : ∀ p ∈ runs, Day p.1 ∧ p.2.OK (on w p.1)
  order : runs.Pairwise (fun a b => a.1 = b.1 → a.2.now.seconds < b.2.now.seconds)
  /-- the libraries -/
  codec : ∀ p ∈ runs, Faithful p.2.config.codec lib p.2.records
  /-- the records of each day -/
  valid : ∀ t ∈ days, LastOf w runs t (rows t)
  /-- the dataset may be read -/
  allowed : Reader.allowed prefixes w.dataset = true

section
variable {w : Job} {first last : DateTime} {days : List DateTime} {runs : List (DateTime × Run Row)} {d : Disk}
  {lib : Lib Row} {rows : DateTime → List Row} {prefixes : List Str}

/-- **C88**: what any statement about the dataset is about: the records that were valid for the last run of each day that
finished, day after day, each once, and nothing of the runs that were stopped. -/
theorem C88_stored (h : Left w first last days runs d lib rows prefixes) (hne : ∃ t ∈ days, rows t ≠ []) (now : DateTime) (rnd : Str) :
    ∃ d' bs, afterDayRuns w d runs = .ok d' ∧
      storedBlobs lib (daysReader w first last prefixes) now rnd d' w.dataset = .ok bs ∧ bs.flatten = days.flatMap rows := by
  obtain ⟨ls, hw, hd⟩ := h.daily
  obtain ⟨d', l, h1, h2, h3, h4⟩ := range_core w ls hw h.format first last h.day1 h.day2 h.le days h.all runs h.ok h.order d hd
    (allTrue lib) (fun p hp => faithful_allTrue (h.codec p hp)) (fun _ _ _ _ => rfl) rows h.valid hne now rnd prefixes h.allowed (fun _ => 0)
  rw [(delivered_eq _ _ _ _ _ h3).1] at h4
  refine ⟨d', (sorted strLe l).map (fun b => blobRows lib b (Disk.read d' b)), h1, ?_, ?_⟩
  · unfold storedBlobs
    have : daysReader w first last prefixes w.dataset = rangeReader w first last prefixes := rfl
    rw [this, h2]
  · simp only [blobRows_eq]
    rw [flatten_rows, h4, filterMap_rows]

variable {env : Env}

/-- **C88**: a statement that selects columns of what runs of batch writers have stored. -/
theorem C88_select (hre : SaneRe env.re) (hl : Sane env.lex) (hch : SaneChars env.ch)
    (h : Left w first last days runs d lib rows prefixes) (hne : ∃ t ∈ days, rows t ≠ []) (now : DateTime) (rnd : Str)
    {raw : Str} {q : Query} (hq : Asks env raw q) {b : Str} (hsel : q.select = some b) (hsrc : q.source = some (.dataset w.dataset))
    (hd : GoodName env.ch w.dataset) (hgb : q.groupBy = none) (hhv : q.having = none)
    {ss : List Sel} (hb : Laid env.re (piecesOf ss) b) (hg : GoodArgs ss) (hs : Selectable ss (days.flatMap rows))
    {out : Row → Row} (hout : ∀ r ∈ days.flatMap rows, columns env.funs r ss = .ok (out r))
    {cond : Row → Bool} (hw : Where env (Hidden ss) (days.flatMap rows) q.whereExpr cond)
    (ht : Tame env q (((days.flatMap rows).filter cond).map out)) :
    ∃ d' g, afterDayRuns w d runs = .ok d' ∧ Answers (stored env lib (daysReader w first last prefixes) now rnd d') raw g ∧
      g.raised = none ∧ Result q (((days.flatMap rows).filter cond).map out) g.items := by
  obtain ⟨d', bs, h1, h2, h3⟩ := C88_stored h hne now rnd
  rw [← h3] at hs hout hw ht ⊢
  obtain ⟨g, h4⟩ := C49_select_partial (env := stored env lib (daysReader w first last prefixes) now rnd d') hre hl hch hq hsel hsrc hd
    h2 hgb hhv hb hg hs hout hw ⟨fun h => ⟨(ht.separated h).names, (ht.separated h).values, (ht.separated h).hashes⟩, ht.comparable, ht.few, ht.positive⟩
  exact ⟨d', g, h1, h4⟩

/-- **C88**: `SELECT *`. -/
theorem C88_star (hre : SaneRe env.re) (hl : Sane env.lex) (hch : SaneChars env.ch)
    (h : Left w first last days runs d lib rows prefixes) (hne : ∃ t ∈ days, rows t ≠ []) (now : DateTime) (rnd : Str)
    {raw : Str} {q : Query} (hq : Asks env raw q) (hsel : q.select = some "*".toList) (hsrc : q.source = some (.dataset w.dataset))
    (hd : GoodName env.ch w.dataset) (hgb : q.groupBy = none) (hhv : q.having = none)
    (hfull : q.whereExpr = none → ∀ r ∈ days.flatMap rows, r ≠ [])
    {cond : Row → Bool} (hw : Where env (fun _ => False) (days.flatMap rows) q.whereExpr cond)
    (ht : Tame env q ((days.flatMap rows).filter cond)) :
    ∃ d' g, afterDayRuns w d runs = .ok d' ∧ Answers (stored env lib (daysReader w first last prefixes) now rnd d') raw g ∧
      g.raised = none ∧ Result q ((days.flatMap rows).filter cond) g.items := by
  obtain ⟨d', bs, h1, h2, h3⟩ := C88_stored h hne now rnd
  rw [← h3] at hfull hw ht ⊢
  obtain ⟨g, h4⟩ := C49_star_partial (env := stored env lib (daysReader w first last prefixes) now rnd d') hre hl hch hq hsel hsrc hd
    h2 hgb hhv hfull hw ⟨fun h => ⟨(ht.separated h).names, (ht.separated h).values, (ht.separated h).hashes⟩, ht.comparable, ht.few, ht.positive⟩
  exact ⟨d', g, h1, h4⟩

/-- **C88**: GROUP BY. -/
theorem C88_group (hre : SaneRe env.re) (hl : Sane env.lex) (hch : SaneChars env.ch)
    (h : Left w first last days runs d lib rows prefixes) (hne : ∃ t ∈ days, rows t ≠ []) (now : DateTime) (rnd : Str)
    {raw : Str} {q : Query} (hq : Asks env raw q) {b : Str} (hsel : q.select = some b) (hsrc : q.source = some (.dataset w.dataset))
    (hd : GoodName env.ch w.dataset) {gtext : Str} {columns : List Str} (hgb : q.groupBy = some gtext) (hcols : ColumnList columns gtext)
    {ss : List Sel} {aggs : List (Func × Str)} (hb : Laid env.re (piecesOf ss) b) (hr : ReadableArgs ss) (hss : ss ≠ [])
    (hgl : GroupList columns ss aggs) (hn : Named ss)
    {cond : Row → Bool} (hw : Where env (fun k => k = "*".toList ∨ ∃ a ∈ aggs, k = a.1.name) (days.flatMap rows) q.whereExpr cond)
    {rs : List Record} (hrs : ((days.flatMap rows).filter cond).map (only (columns ++ aggs.map Prod.snd)) = rs.map plain)
    (hhas : ∀ r ∈ rs, ∀ c ∈ columns, r.lookup c ≠ none)
    (hf : GroupBy.Spec.Faithful env.groupHash columns rs) (hfew : FewGroups columns rs) (hdup : GroupBy.Spec.Apart aggs)
    (hfine : ∀ r ∈ rs, (∃ a ∈ aggs, nonNull a.2 (groupOf columns rs r) ≠ []) → ∀ f c, (f, c) ∈ aggs → Fine f (nonNull c (groupOf columns rs r)))
    {keep : Row → Bool} (hhv : ∀ table, Table columns aggs rs table → Having env table q.having keep)
    (ht : ∀ table, Table columns aggs rs table → Tame env q ((table.filter keep).map (shown ss))) :
    ∃ d' g table, afterDayRuns w d runs = .ok d' ∧ Answers (stored env lib (daysReader w first last prefixes) now rnd d') raw g ∧
      g.raised = none ∧ Table columns aggs rs table ∧ Result q ((table.filter keep).map (shown ss)) g.items := by
  obtain ⟨d', bs, h1, h2, h3⟩ := C88_stored h hne now rnd
  rw [← h3] at hw hrs
  obtain ⟨g, table, h4⟩ := C49_group_partial (env := stored env lib (daysReader w first last prefixes) now rnd d') hre hl hch hq hsel hsrc hd
    h2 hgb hcols hb hr hss hgl hn hw hrs hhas hf hfew hdup hfine hhv
    (fun t h => ⟨fun h' => ⟨((ht t h).separated h').names, ((ht t h).separated h').values, ((ht t h).separated h').hashes⟩, (ht t h).comparable, (ht t h).few, (ht t h).positive⟩)
  exact ⟨d', g, table, h1, h4⟩

/-- **C88**: aggregates without GROUP BY. -/
theorem C88_total (hre : SaneRe env.re) (hl : Sane env.lex) (hch : SaneChars env.ch)
    (h : Left w first last days runs d lib rows prefixes) (hne : ∃ t ∈ days, rows t ≠ []) (now : DateTime) (rnd : Str)
    {raw : Str} {q : Query} (hq : Asks env raw q) {b : Str} (hsel : q.select = some b) (hsrc : q.source = some (.dataset w.dataset))
    (hd : GoodName env.ch w.dataset) (hgb : q.groupBy = none)
    {ss : List Sel} {aggs : List (Func × Str)} (hb : Laid env.re (piecesOf ss) b) (hr : ReadableArgs ss) (hss : ss ≠ [])
    (hgl : GroupList [] ss aggs) (hn : Named ss)
    {cond : Row → Bool} (hw : Where env (fun k => k = "*".toList ∨ ∃ a ∈ aggs, k = a.1.name) (days.flatMap rows) q.whereExpr cond)
    {rs : List Record} (hrs : ((days.flatMap rows).filter cond).map (only ("*".toList :: aggs.map Prod.snd)) = rs.map plain)
    (hdup : GroupBy.Spec.Apart aggs)
    (hfine : (∃ a ∈ aggs, nonNull a.2 rs ≠ []) → ∀ f c, (f, c) ∈ aggs → Fine f (nonNull c rs))
    {keep : Row → Bool} (hhv : ∀ table, Total aggs rs table → Having env table q.having keep)
    (ht : ∀ table, Total aggs rs table → Tame env q ((table.filter keep).map (shown ss))) :
    ∃ d' g table, afterDayRuns w d runs = .ok d' ∧ Answers (stored env lib (daysReader w first last prefixes) now rnd d') raw g ∧
      g.raised = none ∧ Total aggs rs table ∧ Result q ((table.filter keep).map (shown ss)) g.items := by
  obtain ⟨d', bs, h1, h2, h3⟩ := C88_stored h hne now rnd
  rw [← h3] at hw hrs
  obtain ⟨g, table, h4⟩ := C49_total_partial (env := stored env lib (daysReader w first last prefixes) now rnd d') hre hl hch hq hsel hsrc hd
    h2 hgb hb hr hss hgl hn hw hrs hdup hfine hhv
    (fun t h => ⟨fun h' => ⟨((ht t h).separated h').names, ((ht t h).separated h').values, ((ht t h).separated h').hashes⟩, (ht t h).comparable, (ht t h).few, (ht t h).positive⟩)
  exact ⟨d', g, table, h1, h4⟩

end

/-! ## Nothing is found -/

/-- What is raised at the start is raised by the whole statement. -/
theorem finish_fail {env : Env} {p : Sql.Parsed} {ts : List Tok} {e : Err} {g : Gen Row} (h : finishQuery env p ts (Gen.fail e) = .ok g) :
    g = Gen.fail e := by
  unfold finishQuery at h
  have hgroup : ∀ x, groupStage env p ts (Gen.fail e) = .ok x → x = Gen.fail e := by
    intro x hx
    unfold groupStage at hx
    split at hx
    · cases ha : aggregations (groupColumns p.groupBy) ts with
      | error e' => rw [ha] at hx; cases hx
      | ok aggs =>
        rw [ha] at hx
        injection hx with hx
        exact hx.symm
    · injection hx with hx
      exact hx.symm
  have hhaving : ∀ x, havingStage env p.having (Gen.fail e) = .ok x → x = Gen.fail e := by
    intro x hx
    unfold havingStage at hx
    split at hx
    · injection hx with hx
      exact hx.symm
    · next t _ =>
      cases ha : parseText env.re env.lex t with
      | error e' => rw [ha] at hx; cases hx
      | ok tree =>
        rw [ha] at hx
        injection hx with hx
        exact hx.symm
  cases h1 : groupStage env p ts (Gen.fail e) with
  | error e' => rw [h1] at h; cases h
  | ok x =>
    rw [h1, hgroup x h1] at h
    cases h2 : havingStage env p.having (Gen.fail e) with
    | error e' =>
      simp only [bind, Except.bind, h2] at h
      cases h
    | ok y =>
      simp only [bind, Except.bind, h2] at h
      injection h with h
      rw [← h, hhaving y h2]
      have a : renameStage ts (Gen.fail e) = Gen.fail e := by
        unfold renameStage
        split <;> rfl
      have b : selectStage (getFields ts) (Gen.fail e) = Gen.fail e := by
        unfold selectStage
        split <;> rfl
      have c : distinctStage env p.distinct (Gen.fail e) = Gen.fail e := by
        unfold distinctStage
        split <;> rfl
      have d : orderStage p.orderBy p.descending p.limit (Gen.fail e) = Gen.fail e := by
        unfold orderStage
        split <;> rfl
      rw [a, b, c, d]
      unfold limitStage
      split
      · rfl
      · next n _ =>
        have : DictSet.itake n (Gen.fail e : Gen Row).items = [] := by
          show DictSet.itake n [] = []
          rfl
        rw [this, if_neg (by rintro ⟨h1, h2⟩; have : (Gen.fail e : Gen Row).items.length = 0 := rfl; omega)]
        rfl

/-- A statement about a dataset that cannot be opened gives nothing, and raises. -/
theorem answers_fail {env : Env} {raw : Str} {g : Gen Row} (h : Answers env raw g) {p : Sql.Parsed}
    (hp : Parses env.re env.lex env.ch raw (.ok p)) {name : Str} (hsrc : (view p).source = some (.dataset name)) {e : Err}
    (hbs : env.blobs name = .error e) : g = Gen.fail e := by
  obtain ⟨n, h⟩ := h
  cases n with
  | zero => cases h
  | succ n =>
    rw [sqlReader] at h
    cases hq : Sql.parse env.re env.lex env.ch n raw with
    | none => rw [hq] at h; cases h
    | some r =>
      have : r = .ok p := parses_unique ⟨n, hq⟩ hp
      subst this
      rw [hq] at h
      simp only at h
      cases hi : init env.re env.lex (p.select.getD []) with
      | error e' => rw [hi] at h; cases h
      | ok ts =>
        rw [hi, source_dataset hsrc] at h
        injection h with h
        unfold openReader at h
        cases h1 : readerTree env p.whereExpr with
        | error e' => rw [h1] at h; cases h
        | ok tree =>
          cases h2 : readerTokens env (actualSelect (p.select.getD [])) with
          | error e' => rw [h1, h2] at h; cases h
          | ok tokens =>
            rw [h1, h2] at h
            have h : finishQuery env p ts (readBlobs env tree (readerColumns env tokens) name) = .ok g := h
            have h3 : readBlobs env tree (readerColumns env tokens) name = Gen.fail e := by
              unfold readBlobs
              rw [hbs]
            rw [h3] at h
            exact finish_fail h

/-- **C88**: if no run for these days has finished, every statement about the dataset that is not refused raises DataNotFoundError
and gives no record, no matter how many runs were stopped, and when. -/
theorem C88_nothing_finished {env : Env} (w : Job) (ls : List (List Paths.Piece)) (hw : Daily w ls)
    (first last : DateTime) (hf : Day first) (hl : Day last) (hle : first.seconds ≤ last.seconds)
    (days : List DateTime) (hdays : DaysOf first last days)
    (runs : List (DateTime × Run Row)) (hok : ∀ p ∈ runs, Day p.1 ∧ p.2.OK (on w p.1))
    (hord : runs.Pairwise (fun a b => a.1 = b.1 → a.2.now.seconds < b.2.now.seconds))
    (hnone : ∀ p ∈ runs, p.1 ∈ days → ¬ p.2.Finished (on w p.1))
    (d : Disk) (hd : ∀ t, (t ∈ days ∨ ∃ p ∈ runs, p.1 = t) → Fresh (folderOf ls t) d) (lib : Lib Row)
    (now : DateTime) (rnd : Str) (prefixes : List Str) (hallow : Reader.allowed prefixes w.dataset = true)
    {raw : Str} {p : Sql.Parsed} (hp : Parses env.re env.lex env.ch raw (.ok p)) (hsrc : (view p).source = some (.dataset w.dataset)) :
    ∃ d', afterDayRuns w d runs = .ok d' ∧
      ∀ g, Answers (stored env lib (daysReader w first last prefixes) now rnd d') raw g → g.items = [] ∧ g.raised = some .dataNotFound := by
  obtain ⟨d', h1, h2⟩ := History.C87_nothing_finished w ls hw first last hf hl hle days hdays runs hok hord hnone d hd now rnd prefixes hallow
  refine ⟨d', h1, fun g hg => ?_⟩
  have h3 : storedBlobs lib (daysReader w first last prefixes) now rnd d' w.dataset = .error .dataNotFound := by
    unfold storedBlobs
    have : daysReader w first last prefixes w.dataset = rangeReader w first last prefixes := rfl
    rw [this, h2]
  have := answers_fail (env := stored env lib (daysReader w first last prefixes) now rnd d') hg hp hsrc h3
  subst this
  exact ⟨rfl, rfl⟩

/-! ## The two models of reading a blob -/

/-- What is done to records, and only to them. -/
def rowOptions (columns : Row → Except Err Row) (filters : Row → Except Err Bool) : Options Row where
  select
    | .row r => (columns r).map .row
    | .raw b => .ok (.raw b)
  filter := some (fun
    | .row r => filters r
    | .raw _ => .ok false)

theorem stages_rows (columns : Row → Except Err Row) (filters : Row → Except Err Bool) (r s : Option Err) : ∀ l : List Row,
    (filterItems (fun x : Item Row => match x with
        | .row r => filters r
        | .raw _ => .ok false) (mapItems (rowOptions columns filters).select r (l.map Item.row)).raised
      (mapItems (rowOptions columns filters).select r (l.map Item.row)).items).items
      = (filterItems filters (mapItems columns s l).raised (mapItems columns s l).items).items.map Item.row
  | [] => rfl
  | x :: l => by
    have ih := stages_rows columns filters r s l
    rw [List.map_cons]
    simp only [mapItems, rowOptions] at ih ⊢
    cases columns x with
    | error e => rfl
    | ok y =>
      simp only [Except.map, filterItems]
      cases filters y with
      | error e => rfl
      | ok k =>
        cases k
        · exact ih
        · exact congrArg (Item.row y :: ·) ih

theorem mapItems_same {α : Type} (r : Option Err) : ∀ l : List α, mapItems .ok r l = ⟨l, r⟩
  | [] => rfl
  | x :: l => by
    simp only [mapItems]
    rw [mapItems_same r l]

theorem filterItems_true {α : Type} (r : Option Err) : ∀ l : List α, filterItems (fun _ => .ok true) r l = ⟨l, r⟩
  | [] => rfl
  | x :: l => by
    simp only [filterItems]
    rw [filterItems_true r l]

theorem all_rows : ∀ l : List (Item Row), (∀ x ∈ l, ∃ r, x = .row r) → (l.filterMap rowOf).map Item.row = l
  | [], _ => rfl
  | x :: l, h => by
    obtain ⟨r, rfl⟩ := h x (List.mem_cons_self ..)
    rw [List.filterMap_cons]
    simp only [rowOf, List.map_cons]
    rw [all_rows l (fun x hx => h x (List.mem_cons_of_mem _ hx))]

/-- **C88**: reading a blob that holds only records, in one go (as C25 does), is decoding it and then selecting and filtering the
records (as C49 does): what the model of SQL statements does with a blob is what the reader does with it. -/
theorem C88_same_reader (lib : Lib Row) (columns : Row → Except Err Row) (filters : Row → Except Err Bool) (name : Str)
    (fetched : Except Err Blobs.Bytes)
    (hrows : ∀ x ∈ Blobs.readBlob lib { filter := some (fun _ => .ok true) } name fetched, ∃ r, x = .row r) :
    Blobs.readBlob lib (rowOptions columns filters) name fetched
      = (readBlob columns filters (blobRows lib name fetched)).map Item.row := by
  unfold blobRows
  unfold Blobs.readBlob at hrows ⊢
  have hx : Blobs.extensionOf { filter := some (fun _ : Item Row => .ok true) } name = Blobs.extensionOf (rowOptions columns filters) name := rfl
  rw [hx] at hrows ⊢
  cases he : Blobs.extensionOf (rowOptions columns filters) name with
  | error e => rfl
  | ok o =>
    cases o with
    | none => rfl
    | some ext =>
      rw [he] at hrows
      simp only at hrows ⊢
      cases hh : Blobs.handler ext with
      | none => rfl
      | some h =>
        obtain ⟨d, p, c⟩ := h
        rw [hh] at hrows
        cases fetched with
        | error e => rfl
        | ok bytes =>
          simp only at hrows ⊢
          unfold stages at hrows ⊢
          have hd : (rowOptions columns filters).depth = 1 := rfl
          simp only [hd, Blobs.Gen.map, Blobs.Gen.filter, mapItems_same] at hrows ⊢
          rw [show (({ filter := some (fun _ => .ok true) } : Options Row).keep lib) = (fun _ => .ok true) from rfl, filterItems_true] at hrows ⊢
          generalize (mapItems (parse lib p) (decompress lib 1 d bytes).raised (decompress lib 1 d bytes).items) = D at hrows ⊢
          simp only at hrows ⊢
          have hD := all_rows D.items hrows
          have := stages_rows columns filters D.raised none (D.items.filterMap rowOf)
          rw [hD] at this
          exact this

/-! ## Concrete runs and statements -/

section
open Mabel.EndToEnd (zJob)
open Mabel.History (demoIds demoStart feb28 feb29 mar1 feb28_day feb29_day mar1_day three_days demo_day_fresh ended_iff
  daily)
open Mabel.Sql (asciiChars asciiChars_sane good_of body_of)

/-- The records that are stored. -/
def storedRows : List Row := [sampleRow 1 "x", sampleRow 3 "y", sampleRow 0 "z", sampleRow 7 "w"]

/-- A record is written as its number. -/
def rowCodec : Writer.Codec Row where
  serialise r := [48 + (storedRows.idxOf r).toUInt8]
  compress b := 1 :: b
  parquet g := g.map (fun r => (storedRows.idxOf r).toUInt8)
  nbytes g := g.length

def rowLib : Lib Row where
  unzstd := fun
    | 1 :: b => .ok b
    | _ => .error .valueError
  unlzma := fun _ => .error .valueError
  unzip := fun _ => .error .valueError
  parquet := fun b => .ok (b.map (fun x => storedRows.getD x.toNat []))
  csv := fun _ => .error .valueError
  json := fun
    | [n] => .ok (storedRows.getD (n.toNat - 48) [])
    | _ => .error .valueError
  xml := fun _ => .error .valueError
  truthy := fun r => decide (r ≠ [])

theorem row_faithful : Faithful rowCodec rowLib storedRows where
  json := by
    intro r hr
    have : ∀ r ∈ storedRows, storedRows.getD ((48 + (storedRows.idxOf r).toUInt8).toNat - 48) [] = r := by decide +kernel
    show Except.ok _ = Except.ok _
    rw [this r hr]
  no_lf := by decide +kernel
  no_cr := by decide +kernel
  zstd := fun _ => rfl
  parquet := by
    intro g hg
    have : ∀ r ∈ storedRows, storedRows.getD ((storedRows.idxOf r).toUInt8).toNat [] = r := by decide +kernel
    show Except.ok ((g.map (fun r => (storedRows.idxOf r).toUInt8)).map _) = _
    rw [List.map_map]
    exact congrArg Except.ok ((List.map_congr_left (fun r hr => this r (hg hr))).trans (List.map_id _))

def rowConfig : Writer.Config Row :=
  { codec := rowCodec, format := .zstd, maximumBlobSize := 2, valid := fun r => r ≠ [], alwaysComplete := false }

/-- One run for each of two days that comes to its end, and one for each that is stopped. -/
def rowRun1 : Run Row := ⟨⟨2024, 3, 1, 10, 0, 0⟩, rowConfig, [sampleRow 1 "x", sampleRow 3 "y"], demoIds, 1000, .finalized⟩
def rowRun2 : Run Row := ⟨⟨2024, 3, 1, 11, 0, 0⟩, rowConfig, [sampleRow 7 "w", sampleRow 7 "w", sampleRow 7 "w"], demoIds, 9, .finalized⟩
def rowRun3 : Run Row := ⟨⟨2024, 3, 1, 11, 30, 0⟩, rowConfig, [sampleRow 0 "z"], demoIds, 1000, .finalized⟩
def rowRun4 : Run Row := ⟨⟨2024, 3, 1, 12, 0, 0⟩, rowConfig, [sampleRow 7 "w", sampleRow 7 "w", sampleRow 7 "w"], demoIds, 20, .finalized⟩

def rowRuns : List (DateTime × Run Row) := [(feb28, rowRun1), (mar1, rowRun2), (mar1, rowRun3), (feb28, rowRun4)]

def rowsOn (t : DateTime) : List Row :=
  if t = feb28 then [sampleRow 1 "x", sampleRow 3 "y"] else if t = mar1 then [sampleRow 0 "z"] else []

theorem row_run_ok (t : DateTime) (r : Run Row) (hm : r ∈ [rowRun1, rowRun2, rowRun3, rowRun4]) : r.OK (on zJob t) := by
  have hc : ∀ r ∈ [rowRun1, rowRun2, rowRun3, rowRun4], r.now.valid = true ∧ r.count ≤ 2 ∧
      r.records.filter r.config.valid ≠ [] := by decide +kernel
  have hi : ∀ r ∈ [rowRun1, rowRun2, rowRun3, rowRun4], r.ids = demoIds ∧ r.config = rowConfig := by
    intro r hr
    simp only [List.mem_cons, List.not_mem_nil, or_false] at hr
    rcases hr with rfl | rfl | rfl | rfl <;> exact ⟨rfl, rfl⟩
  have hhex : ∀ n < 2, HexId (demoIds n) ∧ demoIds n ≠ [] := by unfold HexId; decide +kernel
  have hord : ∀ m < 2, ∀ n < m, (demoIds n).length = (demoIds m).length ∧ demoIds n < demoIds m := by decide +kernel
  obtain ⟨c1, c2, c3⟩ := hc r hm
  obtain ⟨i1, i2⟩ := hi r hm
  refine ⟨c1, by rw [i2]; rfl, ?_, ?_⟩
  · intro n hn
    rw [i1]
    exact hhex n (by omega)
  · intro n m hnm hm'
    rw [i1]
    exact hord m (by omega) n hnm

theorem row_last : ∀ t ∈ [feb28, feb29, mar1], LastOf zJob rowRuns t (rowsOn t) := by
  intro t ht
  simp only [List.mem_cons, List.not_mem_nil, or_false] at ht
  rcases ht with rfl | rfl | rfl
  · refine Or.inl ⟨[], rowRun1, [(mar1, rowRun2), (mar1, rowRun3), (feb28, rowRun4)], rfl,
      (ended_iff ⟨rfl, Or.inl (by decide +kernel)⟩).2 (by decide +kernel), ?_, by decide +kernel⟩
    intro p hp e
    simp only [List.mem_cons, List.not_mem_nil, or_false] at hp
    rcases hp with rfl | rfl | rfl
    · exact absurd e (by decide)
    · exact absurd e (by decide)
    · rw [ended_iff ⟨rfl, Or.inl (by decide +kernel)⟩]
      decide +kernel
  · refine Or.inr ⟨?_, by decide +kernel⟩
    intro p hp e
    simp only [rowRuns, List.mem_cons, List.not_mem_nil, or_false] at hp
    rcases hp with rfl | rfl | rfl | rfl <;> exact absurd e (by decide)
  · refine Or.inl ⟨[(feb28, rowRun1), (mar1, rowRun2)], rowRun3, [(feb28, rowRun4)], rfl,
      (ended_iff ⟨rfl, Or.inl (by decide +kernel)⟩).2 (by decide +kernel), ?_, by decide +kernel⟩
    intro p hp e
    simp only [List.mem_cons, List.not_mem_nil, or_false] at hp
    rw [hp] at e
    exact absurd e (by decide)

/-- Non-vacuity: what these runs have left. -/
theorem row_left : Left zJob feb28 mar1 [feb28, feb29, mar1] rowRuns demoStart rowLib rowsOn ["tests/".toList] where
  daily := by
    refine ⟨demoFolders, daily, ?_⟩
    rintro t (ht | ⟨p, hp, rfl⟩)
    · exact demo_day_fresh ht
    · refine demo_day_fresh ?_
      simp only [rowRuns, List.mem_cons, List.not_mem_nil, or_false] at hp
      rcases hp with rfl | rfl | rfl | rfl <;> simp
  format := by decide
  day1 := feb28_day
  day2 := mar1_day
  le := by decide +kernel
  all := three_days
  ok := by
    intro p hp
    simp only [rowRuns, List.mem_cons, List.not_mem_nil, or_false] at hp
    rcases hp with rfl | rfl | rfl | rfl
    · exact ⟨feb28_day, row_run_ok _ _ (by simp)⟩
    · exact ⟨mar1_day, row_run_ok _ _ (by simp)⟩
    · exact ⟨mar1_day, row_run_ok _ _ (by simp)⟩
    · exact ⟨feb28_day, row_run_ok _ _ (by simp)⟩
  order := by
    have : rowRuns.Pairwise (fun a b => a.1 = b.1 → a.2.now.seconds < b.2.now.seconds) := by
      unfold rowRuns
      decide +kernel
    exact this
  codec := by
    intro p hp
    have : ∀ p ∈ rowRuns, p.2.records ⊆ storedRows := by
      intro p hp
      simp only [rowRuns, List.mem_cons, List.not_mem_nil, or_false] at hp
      rcases hp with rfl | rfl | rfl | rfl <;> decide +kernel
    refine Faithful.mono ?_ (this p hp)
    simp only [rowRuns, List.mem_cons, List.not_mem_nil, or_false] at hp
    rcases hp with rfl | rfl | rfl | rfl <;> exact row_faithful
  valid := row_last
  allowed := by decide

theorem row_days : [feb28, feb29, mar1].flatMap rowsOn = [sampleRow 1 "x", sampleRow 3 "y", sampleRow 0 "z"] := by decide +kernel

theorem row_some : ∃ t ∈ [feb28, feb29, mar1], rowsOn t ≠ [] := ⟨feb28, by simp, by decide +kernel⟩

def rawStored : Str := "SELECT * FROM tests.data WHERE a > 0".toList

theorem asks_stored : Asks sampleEnv rawStored
    { select := some "*".toList, source := some (.dataset "tests/data".toList), whereExpr := some "a > 0".toList } := by
  refine ⟨[.select false "*".toList, .dataset "tests.data".toList, .where_ "a > 0".toList], ?_, ⟨nofun, nofun, trivial⟩, by decide +kernel⟩
  have e : Tokenizer.clean (Sql.removeComments rawStored) = "SELECT".toList ++ ' ' :: "*".toList ++ ' ' ::
    ("FROM".toList ++ ' ' :: "tests.data".toList ++ ' ' :: ("WHERE".toList ++ ' ' :: "a > 0".toList)) := by decide +kernel
  rw [e]
  exact .more (.select (by decide) (body_of _ (by decide) (by decide) (by decide +kernel)))
    (.more (.dataset (by decide) (body_of _ (by decide) (by decide) (by decide +kernel)) (by decide) (by decide))
    (.one (.where_ (by decide) (body_of _ (by decide) (by decide) (by decide +kernel)))))

/-- Non-vacuity of `C88_star`: from the runs and the text of the statement to the records. -/
example (now : DateTime) (rnd : Str) : ∃ d' g, afterDayRuns zJob demoStart rowRuns = .ok d' ∧
    Answers (stored sampleEnv rowLib (daysReader zJob feb28 mar1 ["tests/".toList]) now rnd d') rawStored g ∧
    g.raised = none ∧ g.items = [sampleRow 1 "x", sampleRow 3 "y"] := by
  obtain ⟨d', g, h1, h2, h3, h4⟩ := C88_star (env := sampleEnv) asciiRe_sane sampleLex_sane asciiChars_sane row_left row_some now rnd
    asks_stored rfl rfl (good_of _ (by decide +kernel)) rfl rfl nofun (by rw [row_days]; exact where_pos (fun h => h))
    (plain_query _ _ rfl rfl rfl)
  refine ⟨d', g, h1, h2, h3, ?_⟩
  have h4 : g.items = _ := h4
  rw [h4, row_days]
  decide +kernel

def rawStored2 : Str := "SELECT a, UPPER(b) AS c FROM tests.data WHERE a > 0".toList

theorem asks_stored2 : Asks sampleEnv rawStored2
    { select := some "a, UPPER(b) AS c".toList, source := some (.dataset "tests/data".toList), whereExpr := some "a > 0".toList } := by
  refine ⟨[.select false "a, UPPER(b) AS c".toList, .dataset "tests.data".toList, .where_ "a > 0".toList], ?_, ⟨nofun, nofun, trivial⟩, by decide +kernel⟩
  have e : Tokenizer.clean (Sql.removeComments rawStored2) = "SELECT".toList ++ ' ' :: "a, UPPER(b) AS c".toList ++ ' ' ::
    ("FROM".toList ++ ' ' :: "tests.data".toList ++ ' ' :: ("WHERE".toList ++ ' ' :: "a > 0".toList)) := by decide +kernel
  rw [e]
  exact .more (.select (by decide) (body_of _ (by decide) (by decide) (by decide +kernel)))
    (.more (.dataset (by decide) (body_of _ (by decide) (by decide) (by decide +kernel)) (by decide) (by decide))
    (.one (.where_ (by decide) (body_of _ (by decide) (by decide) (by decide +kernel)))))

/-- Non-vacuity of `C88_select`. -/
example (now : DateTime) (rnd : Str) : ∃ d' g, afterDayRuns zJob demoStart rowRuns = .ok d' ∧
    Answers (stored sampleEnv rowLib (daysReader zJob feb28 mar1 ["tests/".toList]) now rnd d') rawStored2 g ∧
    g.raised = none ∧ g.items = [[("a".toList, .one (.int 1)), ("c".toList, .one (.str "X".toList))],
      [("a".toList, .one (.int 3)), ("c".toList, .one (.str "Y".toList))]] := by
  obtain ⟨d', g, h1, h2, h3, h4⟩ := C88_select (env := sampleEnv) asciiRe_sane sampleLex_sane asciiChars_sane row_left row_some now rnd
    asks_stored2 rfl rfl (good_of _ (by decide +kernel)) rfl rfl sels_laid sels_good (by rw [row_days]; exact sels_selectable) (out := upperB)
    (by
      rw [row_days]
      intro r hr
      simp only [List.mem_cons, List.not_mem_nil, or_false] at hr
      rcases hr with rfl | rfl | rfl <;> rfl)
    (by
      rw [row_days]
      refine where_pos ?_
      rintro (h | ⟨s, hs, h⟩)
      · exact absurd h (by decide)
      · simp only [sampleSels, List.mem_cons, List.not_mem_nil, or_false] at hs
        rcases hs with rfl | rfl
        · exact h
        · exact absurd (show "c".toList = "a".toList from h) (by decide))
    (plain_query _ _ rfl rfl rfl)
  refine ⟨d', g, h1, h2, h3, ?_⟩
  have h4 : g.items = _ := h4
  rw [h4, row_days]
  decide +kernel

def rawStored3 : Str := "SELECT a, COUNT(*) FROM tests.data GROUP BY a HAVING a > 0".toList

theorem asks_stored3 : Asks sampleEnv rawStored3
    { select := some "a, COUNT(*)".toList, source := some (.dataset "tests/data".toList), groupBy := some "a".toList, having := some "a > 0".toList } := by
  refine ⟨[.select false "a, COUNT(*)".toList, .dataset "tests.data".toList, .groupBy "a".toList, .having "a > 0".toList], ?_,
    ⟨nofun, nofun, nofun, trivial⟩, by decide +kernel⟩
  have e : Tokenizer.clean (Sql.removeComments rawStored3) = "SELECT".toList ++ ' ' :: "a, COUNT(*)".toList ++ ' ' ::
    ("FROM".toList ++ ' ' :: "tests.data".toList ++ ' ' :: ("GROUP BY".toList ++ ' ' :: "a".toList ++ ' ' ::
    ("HAVING".toList ++ ' ' :: "a > 0".toList))) := by decide +kernel
  rw [e]
  exact .more (.select (by decide) (body_of _ (by decide) (by decide) (by decide +kernel)))
    (.more (.dataset (by decide) (body_of _ (by decide) (by decide) (by decide +kernel)) (by decide) (by decide))
    (.more (.groupBy (by decide) (body_of _ (by decide) (by decide) (by decide +kernel)))
    (.one (.having (by decide) (body_of _ (by decide) (by decide) (by decide +kernel))))))

/-- Non-vacuity of `C88_group`. -/
example (now : DateTime) (rnd : Str) : ∃ d' g table, afterDayRuns zJob demoStart rowRuns = .ok d' ∧
    Answers (stored sampleEnv rowLib (daysReader zJob feb28 mar1 ["tests/".toList]) now rnd d') rawStored3 g ∧
    g.raised = none ∧ Table ["a".toList] [(.count, "*".toList)] groupRecords table ∧
    g.items = (table.filter positive).map (shown groupSels) := by
  obtain ⟨d', g, table, h0, h1, h2, h3, h4⟩ := C88_group (env := sampleEnv) asciiRe_sane sampleLex_sane asciiChars_sane row_left row_some now rnd
    asks_stored3 rfl rfl
    (good_of _ (by decide +kernel)) rfl (.one (a := []) (b := []) name_a b0 b0) group_laid group_readable (by simp [groupSels])
    (aggs := [(.count, "*".toList)]) (.column (List.mem_singleton.2 rfl) (.agg (.star (by decide)) .nil))
    ⟨by decide +kernel, by decide +kernel, by decide +kernel⟩ (cond := fun _ => true) (fun _ _ => rfl) (rs := groupRecords)
    (by rw [row_days]; rfl)
    (by decide +kernel) (by unfold GroupBy.Spec.Faithful; decide +kernel) (few_of (rs := groupRecords) (by decide)) (by decide)
    (by
      intro r _ _ f c h
      rw [List.mem_singleton] at h
      cases h
      trivial)
    (keep := positive)
    (by
      intro table ht
      refine ⟨posText, _, pos_laid, by decide, pos_simple, pos_written, fun row hrow => ?_⟩
      obtain ⟨r, hr, hc, _⟩ := ht.right row hrow
      have hl : row.lookup "a".toList = some (datum (r.get "a".toList)) := by
        have := List.all_eq_true.1 hc _ (List.mem_singleton.2 rfl)
        simpa using this
      have hi : ∃ i, r.get "a".toList = .int i := by
        have : ∀ r ∈ groupRecords, r.get "a".toList = .int 1 ∨ r.get "a".toList = .int 3 ∨ r.get "a".toList = .int 0 := by decide +kernel
        rcases this r hr with h | h | h <;> exact ⟨_, h⟩
      obtain ⟨i, hi⟩ := hi
      rw [hi] at hl
      exact pos_evaluate hl)
    (fun _ _ => plain_query _ _ rfl rfl rfl)
  exact ⟨d', g, table, h0, h1, h2, h3, h4⟩

def rawStored4 : Str := "SELECT COUNT(*) AS n FROM tests.data".toList

theorem asks_stored4 : Asks sampleEnv rawStored4 { select := some "COUNT(*) AS n".toList, source := some (.dataset "tests/data".toList) } := by
  refine ⟨[.select false "COUNT(*) AS n".toList, .dataset "tests.data".toList], ?_, ⟨nofun, trivial⟩, by decide +kernel⟩
  have e : Tokenizer.clean (Sql.removeComments rawStored4) = "SELECT".toList ++ ' ' :: "COUNT(*) AS n".toList ++ ' ' ::
    ("FROM".toList ++ ' ' :: "tests.data".toList) := by decide +kernel
  rw [e]
  exact .more (.select (by decide) (body_of _ (by decide) (by decide) (by decide +kernel)))
    (.one (.dataset (by decide) (body_of _ (by decide) (by decide) (by decide +kernel)) (by decide) (by decide)))

/-- Non-vacuity of `C88_total`: three records were stored by runs that finished. -/
example (now : DateTime) (rnd : Str) : ∃ d' g, afterDayRuns zJob demoStart rowRuns = .ok d' ∧
    Answers (stored sampleEnv rowLib (daysReader zJob feb28 mar1 ["tests/".toList]) now rnd d') rawStored4 g ∧
    g.raised = none ∧ g.items = [[("n".toList, .one (.int 3))]] := by
  obtain ⟨d', g, table, h0, h1, h2, h3, h4⟩ := C88_total (env := sampleEnv) asciiRe_sane sampleLex_sane asciiChars_sane row_left row_some now rnd
    asks_stored4 rfl rfl (good_of _ (by decide +kernel)) rfl total_laid total_readable (by simp [totalSels])
    (aggs := [(.count, "*".toList)]) (.agg (.star (by decide)) .nil)
    ⟨by decide +kernel, by decide +kernel, by decide +kernel⟩ (cond := fun _ => true) (fun _ _ => rfl) (rs := totalRecords)
    (by rw [row_days]; rfl) (by decide)
    (by
      intro _ f c h
      rw [List.mem_singleton] at h
      cases h
      trivial)
    (keep := fun _ => true) (fun _ _ => fun _ _ => rfl) (fun _ _ => plain_query _ _ rfl rfl rfl)
  refine ⟨d', g, h0, h1, h2, ?_⟩
  obtain ⟨row, rfl, h5⟩ := h3.one ⟨_, List.mem_singleton.2 rfl, by decide +kernel⟩
  obtain ⟨x, h6, h7⟩ := h5 _ _ (List.mem_singleton.2 rfl)
  have h7 : x = .val (.int 3) := h7
  have h4 : g.items = [shown totalSels row] := h4
  subst h7
  have h6 : row.lookup "COUNT(*)".toList = some (.one (.int 3)) := h6
  have : shown totalSels row = [("n".toList, .one (.int 3))] := by
    show [("n".toList, (row.lookup "COUNT(*)".toList).getD (.one .none))] = _
    rw [h6]
    rfl
  rw [h4, this]

/-- Non-vacuity of `C88_nothing_finished`: a run was stopped, and the statement can be read. -/
example (now : DateTime) (rnd : Str) : ∃ d', afterDayRuns zJob demoStart [(feb29, rowRun2)] = .ok d' ∧
    ∀ g, Answers (stored sampleEnv rowLib (daysReader zJob feb29 feb29 ["tests/".toList]) now rnd d') rawStored4 g →
      g.items = [] ∧ g.raised = some .dataNotFound := by
  obtain ⟨p, hp, hv⟩ := asks_parses asciiRe_sane sampleLex_sane asciiChars_sane asks_stored4 (by simp) (by simp)
    (by intro d' h; injection h with h; injection h with h; exact h ▸ good_of _ (by decide +kernel))
  exact C88_nothing_finished (env := sampleEnv) zJob demoFolders daily feb29 feb29 feb29_day feb29_day (by decide) [feb29]
    ⟨by
      intro t
      simp only [List.mem_singleton]
      exact ⟨by rintro rfl; exact ⟨feb29_day, Nat.le_refl _, Nat.le_refl _⟩,
        fun ⟨ht, h1, h2⟩ => ht.eq_of_seconds feb29_day (Nat.le_antisymm h2 h1)⟩, by simp⟩
    [(feb29, rowRun2)] (by simpa using ⟨feb29_day, row_run_ok _ _ (by simp)⟩) (by simp)
    (by
      intro p hp _
      rw [List.mem_singleton.1 hp, ended_iff ⟨rfl, Or.inl (by decide +kernel)⟩]
      decide +kernel)
    demoStart (by
      rintro t (ht | ⟨p, hp, rfl⟩)
      · exact demo_day_fresh (by rw [List.mem_singleton.1 ht]; simp)
      · exact demo_day_fresh (by rw [List.mem_singleton.1 hp]; simp))
    rowLib now rnd ["tests/".toList] (by decide) hp (by rw [hv]; rfl)

end

end Mabel.SqlReader
