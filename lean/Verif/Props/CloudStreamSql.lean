import Verif.Props.StreamSql
import Verif.Props.CloudSql
import Verif.Props.CloudStream

/-!
# C115: SQL statements and filters about what stream writers have stored on object storage
-/

namespace Mabel.SqlReader
open Mabel.Py Mabel.Paths Mabel.Dates Mabel.Tokens Mabel.Filters Mabel.Filters.Spec Mabel.Records Mabel.Expression.Spec Mabel.Evaluator
  Mabel.Evaluator.Spec Mabel.SqlReader.Spec Mabel.Listing Mabel.Naming
open Mabel.Expression (sampleLex_sane)
open Mabel.Sql.Spec (Query SaneChars GoodName Parses view)
open Mabel.Tokenizer (asciiRe asciiRe_sane)
open Mabel.Tokenizer.Spec (SaneRe)
open Mabel.Blobs (Gen Lib Item Faithful delivered formatOf)
open Mabel.History (Daily rangeReader)
open Mabel.WriterInit (Nested)
open Mabel.Stream (Conf Machine Reach run)
open Mabel.StreamStorage (Setup Call Served appended op handed dayWriter hourWriter fieldWriter atStart Range OneValue has)
open Mabel.EndToEnd (midnight)
open Mabel.ObjectStore (Obj blobBytes)
open Mabel.CloudStream (Place Kept Lister inObjects)

/-! ## From what is listed to the answers -/

/-- `SqlReader(…, start_date=first, end_date=last, partition_filter=…)`: its reader of a dataset (with the partitions of this one). -/
def filteredReader (w : Job) (first last : DateTime) (prefixes : List Str) (flt : Option PartitionFilter) (dataset : Str) : Reader.Config :=
  { daysReader w first last prefixes dataset with filter := flt }

theorem filteredReader_none (w : Job) (first last : DateTime) (prefixes : List Str) :
    filteredReader w first last prefixes none = daysReader w first last prefixes := rfl

section
variable {w : Job} {first last : DateTime} {prefixes : List Str} {flt : Option PartitionFilter} {lib : Lib Row} {now : DateTime}
  {rnd : Str} {s' : List (Obj Disk.Bytes)} {v : Which}

theorem lister_of : Lister (rangeReader w first last prefixes flt) now rnd s' (v.listed (rangeReader w first last prefixes flt) now rnd s') := by
  cases v
  · exact .inl rfl
  · exact .inr rfl

/-- What a reader of a service delivers, with no record taken for nothing, is what statements are about. -/
theorem cloudBlobs_of {l : List Str} {rows : List Row}
    (h5 : Reader.openReader (rangeReader w first last prefixes flt) now rnd (v.listed (rangeReader w first last prefixes flt) now rnd s') = .ok (0, l))
    (h6 : delivered (fun _ => 0) (allTrue lib) {} (blobBytes s') l = rows.map .row) :
    ∃ bs, cloudBlobs v lib (filteredReader w first last prefixes flt) now rnd s' w.dataset = .ok bs ∧ bs.flatten = rows := by
  have hl : [] ∉ l := fun hm => absurd (openReader_readable h5 _ hm) (by decide)
  unfold delivered Blobs.readSerial at h6
  rw [Cursor.readAll_repeats _ _ _ hl] at h6
  refine ⟨(sorted strLe l).eraseDups.map (fun b => blobRows lib b (blobBytes s' b)), ?_, ?_⟩
  · unfold cloudBlobs
    have : filteredReader w first last prefixes flt w.dataset = rangeReader w first last prefixes flt := rfl
    rw [this, h5]
  · simp only [blobRows_eq]
    rw [flatten_rows, h6, filterMap_rows]

theorem cloudBlobs_error {e : Err}
    (h : Reader.openReader (rangeReader w first last prefixes flt) now rnd (v.listed (rangeReader w first last prefixes flt) now rnd s') = .error e) :
    cloudBlobs v lib (filteredReader w first last prefixes flt) now rnd s' w.dataset = .error e := by
  unfold cloudBlobs
  have : filteredReader w first last prefixes flt w.dataset = rangeReader w first last prefixes flt := rfl
  rw [this, h]

theorem kept_allTrue {codec : Writer.Codec Row} {records : List Row} (h : Faithful codec lib records) : Kept codec (allTrue lib) records :=
  ⟨faithful_allTrue h, fun _ _ => rfl⟩

/-- A storage whose readers find nothing, or deliver these records. -/
theorem cloud_answers {env : Env} (hre : SaneRe env.re) (hl : Sane env.lex) (hch : SaneChars env.ch) (hd : GoodName env.ch w.dataset)
    {rows : List Row} {P : Prop}
    (h : (Reader.openReader (rangeReader w first last prefixes flt) now rnd (v.listed (rangeReader w first last prefixes flt) now rnd s')
        = .error .dataNotFound ∧ P) ∨
      ∃ l, Reader.openReader (rangeReader w first last prefixes flt) now rnd (v.listed (rangeReader w first last prefixes flt) now rnd s')
          = .ok (0, l) ∧ delivered (fun _ => 0) (allTrue lib) {} (blobBytes s') l = rows.map .row) :
    (NotFound (onCloud env v lib (filteredReader w first last prefixes flt) now rnd s') w.dataset ∧ P) ∨
      Answered (onCloud env v lib (filteredReader w first last prefixes flt) now rnd s') w.dataset rows := by
  rcases h with ⟨e, hp⟩ | ⟨l, l1, l2⟩
  · exact .inl ⟨notFound_of (env := onCloud env v lib (filteredReader w first last prefixes flt) now rnd s') (cloudBlobs_error e), hp⟩
  · obtain ⟨bs, b1, b2⟩ := cloudBlobs_of l1 l2
    exact .inr (answered_of (env := onCloud env v lib (filteredReader w first last prefixes flt) now rnd s') hre hl hch hd b1 b2)

end

/-! ## C115, a folder for each day -/

section
variable {β : Type} {env : Env} (v : Which) (hre : SaneRe env.re) (hl : Sane env.lex) (hch : SaneChars env.ch) {w : Job}
  (hd : GoodName env.ch w.dataset) {ls : List (List Paths.Piece)} (hw : Daily w ls) (hfmt : w.format ≠ "text".toList)
  (date : Option DateTime) (c : Conf Row) (hc : c.blob.format = formatOf w.format) (valid : Row → Bool) (str : β → Str)
  (field : Row → Str → Targets.Field β) {S : DateTime → Prop} (calls : Nat → List (Call Row β)) (clock : List Int)
  (s : List (Obj Disk.Bytes)) (ids : List Str) {first last : DateTime} {days : List DateTime} (hr : Range S first last days)
  (records : List Row) (lib : Lib Row) (hf : Faithful c.blob.codec lib records) (now : DateTime) (rnd : Str)
  (prefixes : List Str) (hallow : Reader.allowed prefixes w.dataset = true)
include hre hl hch hd hw hfmt hc hr hf hallow

/-- **C115 (streamed is queried).**  Threads call a stream writer on Google Cloud Storage or MinIO, and at a moment when no call is
under way and no writer is open, as after `finalize`, all blobs handed over have been stored.  Statements and filters about these
days are then answered as if the dataset were exactly the valid records appended on each day (or for it, if the writer has a date),
in the order in which the appends obtained the writer; if there are none, every statement raises DataNotFoundError.

Missing for the full property: the statements that C49 leaves out, and the datasets that C112 leaves out. -/
theorem C115_streamed_partial (hn : Nested ls) (ha : StreamStorage.Asked (dayWriter w date) valid field S calls records) (m : Machine Row)
    (h : Reach c (atStart (dayWriter w date) valid str calls clock) m) (hfree : m.owner = none)
    (hempty : m.pool.writers = []) (hplace : Place ls S s ids (handed m.pool.store).length) :
    ∃ (hist : List (Nat × Call Row β)) (left : Nat → List (Call Row β)), Served calls hist left ∧
      (∀ t, m.todo t = (left t).map (op (dayWriter w date) valid str)) ∧
      m.pool = run c { clock := clock } (hist.map (fun x => op (dayWriter w date) valid str x.2)) ∧
      ∀ j, (handed m.pool.store).length ≤ j →
        ∃ s', inObjects v.service (dayWriter w date) ids s m.pool.store j = .ok s' ∧
          let rows := days.flatMap fun t => appended date valid (fun u => midnight u = t) hist
          (rows = [] → NotFound (onCloud env v lib (daysReader w first last prefixes) now rnd s') w.dataset) ∧
          (rows ≠ [] → Answered (onCloud env v lib (daysReader w first last prefixes) now rnd s') w.dataset rows) := by
  obtain ⟨hist, left, h1, h2, h3, h4⟩ := CloudStream.C112_streamed_is_read_partial hw hn hfmt date c hc valid str field calls clock s ids
    hr records (allTrue lib) (kept_allTrue hf) now rnd prefixes hallow (fun _ => 0) ha m h hfree hempty hplace
  refine ⟨hist, left, h1, h2, h3, fun j hj => ?_⟩
  obtain ⟨s', g1, g1', -, g3⟩ := h4 j hj
  obtain ⟨k1, k2⟩ := g3 _ (lister_of (v := v))
  refine ⟨s', by cases v <;> assumption, fun e => ?_, fun e => ?_⟩
  · exact notFound_of (env := onCloud env v lib (daysReader w first last prefixes) now rnd s') (cloudBlobs_error (k1 e))
  · obtain ⟨l, l1, l2⟩ := k2 e
    obtain ⟨bs, b1, b2⟩ := cloudBlobs_of l1 l2
    exact answered_of (env := onCloud env v lib (daysReader w first last prefixes) now rnd s') hre hl hch hd b1 b2

/-- **C115 (finalized is kept).**  At one moment no call was under way and no writer was open.  At any later moment, with any calls
under way and any number of blobs stored, those handed over by then among them, even if no more is ever stored, statements and
filters are answered as if the dataset were, day by day, the records appended before and then the first so many of those appended
since, in the order of the appends. -/
theorem C115_finalized_stays_partial (hn : Nested ls) (ha : StreamStorage.Asked (dayWriter w date) valid field S calls records)
    (m1 m2 : Machine Row) (h1 : Reach c (atStart (dayWriter w date) valid str calls clock) m1) (hfree : m1.owner = none)
    (hempty : m1.pool.writers = []) (h2 : Reach c m1 m2) (hplace : Place ls S s ids (handed m2.pool.store).length) :
    ∃ (hist1 hist2 : List (Nat × Call Row β)) (left1 left2 : Nat → List (Call Row β)),
      Served calls hist1 left1 ∧ Served left1 hist2 left2 ∧
      (∀ t, m2.todo t = (left2 t).map (op (dayWriter w date) valid str)) ∧
      m1.pool = run c { clock := clock } (hist1.map (fun x => op (dayWriter w date) valid str x.2)) ∧
      ∀ j, (handed m1.pool.store).length ≤ j →
        ∃ (s' : List (Obj Disk.Bytes)) (rows : DateTime → List Row),
          inObjects v.service (dayWriter w date) ids s m2.pool.store j = .ok s' ∧
          (∀ t ∈ days, appended date valid (fun u => midnight u = t) hist1 <+: rows t ∧
            rows t <+: appended date valid (fun u => midnight u = t) (hist1 ++ hist2)) ∧
          ((NotFound (onCloud env v lib (daysReader w first last prefixes) now rnd s') w.dataset ∧ ∀ t ∈ days, rows t = []) ∨
            Answered (onCloud env v lib (daysReader w first last prefixes) now rnd s') w.dataset (days.flatMap rows)) := by
  obtain ⟨hist1, hist2, left1, left2, s1, s2, t2, hrun, hk⟩ := CloudStream.C112_finalized_stays_partial hw hn hfmt date c hc valid str field
    calls clock s ids hr records (allTrue lib) (kept_allTrue hf) now rnd prefixes hallow (fun _ => 0) ha m1 m2 h1 hfree hempty h2 hplace
  refine ⟨hist1, hist2, left1, left2, s1, s2, t2, hrun, fun j hj => ?_⟩
  obtain ⟨s', rows, g1, g1', -, g2, g3⟩ := hk j hj
  exact ⟨s', rows, by cases v <;> assumption, g2, cloud_answers (flt := none) hre hl hch hd (g3 _ lister_of)⟩

/-- **C115 (at any moment).**  With any calls under way and any number of blobs stored, statements and filters are answered as if the
dataset were, day by day, the first so many of the valid records appended, in the order of the appends. -/
theorem C115_at_any_moment_partial (hn : Nested ls) (ha : StreamStorage.Asked (dayWriter w date) valid field S calls records)
    (m : Machine Row) (h : Reach c (atStart (dayWriter w date) valid str calls clock) m)
    (hplace : Place ls S s ids (handed m.pool.store).length) :
    ∃ (hist : List (Nat × Call Row β)) (left : Nat → List (Call Row β)), Served calls hist left ∧
      (∀ t, m.todo t = (left t).map (op (dayWriter w date) valid str)) ∧
      ∀ j, ∃ (s' : List (Obj Disk.Bytes)) (rows : DateTime → List Row),
          inObjects v.service (dayWriter w date) ids s m.pool.store j = .ok s' ∧
          (∀ t ∈ days, rows t <+: appended date valid (fun u => midnight u = t) hist) ∧
          ((NotFound (onCloud env v lib (daysReader w first last prefixes) now rnd s') w.dataset ∧ ∀ t ∈ days, rows t = []) ∨
            Answered (onCloud env v lib (daysReader w first last prefixes) now rnd s') w.dataset (days.flatMap rows)) := by
  obtain ⟨hist, left, h1, h2, h3⟩ := CloudStream.C112_at_any_moment_partial hw hn hfmt date c hc valid str field calls clock s ids
    hr records (allTrue lib) (kept_allTrue hf) now rnd prefixes hallow (fun _ => 0) ha m h hplace
  refine ⟨hist, left, h1, h2, fun j => ?_⟩
  obtain ⟨s', rows, g1, g1', -, g2, g3⟩ := h3 j
  exact ⟨s', rows, by cases v <;> assumption, g2, cloud_answers (flt := none) hre hl hch hd (g3 _ lister_of)⟩

/-! ## C115, folders for the hours, and for the values of a field -/

variable (hby : ∀ t, History.Day t → contains "by_".toList (join ['/'] (History.folderOf ls t)) = false)
include hby

/-- **C115 (by the hour).**  As `C115_streamed_partial`, of a writer that partitions each day by the hour: the records of a day are in
the order of the hours and, within an hour, of the appends. -/
theorem C115_hours_partial (ha : StreamStorage.Asked (hourWriter w date) valid field S calls records) (m : Machine Row)
    (h : Reach c (atStart (hourWriter w date) valid str calls clock) m) (hfree : m.owner = none)
    (hempty : m.pool.writers = []) (hplace : Place ls S s ids (handed m.pool.store).length) :
    ∃ (hist : List (Nat × Call Row β)) (left : Nat → List (Call Row β)), Served calls hist left ∧
      (∀ t, m.todo t = (left t).map (op (hourWriter w date) valid str)) ∧
      m.pool = run c { clock := clock } (hist.map (fun x => op (hourWriter w date) valid str x.2)) ∧
      ∀ j, (handed m.pool.store).length ≤ j →
        ∃ s', inObjects v.service (hourWriter w date) ids s m.pool.store j = .ok s' ∧
          let rows := days.flatMap fun t => (List.range 24).flatMap fun h => appended date valid (fun u => midnight u = t ∧ u.hour = h) hist
          (rows = [] → NotFound (onCloud env v lib (daysReader w first last prefixes) now rnd s') w.dataset) ∧
          (rows ≠ [] → Answered (onCloud env v lib (daysReader w first last prefixes) now rnd s') w.dataset rows) := by
  obtain ⟨hist, left, h1, h2, h3, h4⟩ := CloudStream.C112_hours_are_read_partial hw hby hfmt date c hc valid str field calls clock s ids
    hr records (allTrue lib) (kept_allTrue hf) now rnd prefixes hallow (fun _ => 0) ha m h hfree hempty hplace
  refine ⟨hist, left, h1, h2, h3, fun j hj => ?_⟩
  obtain ⟨s', g1, g1', -, g3⟩ := h4 j hj
  obtain ⟨k1, k2⟩ := g3 _ (lister_of (v := v))
  refine ⟨s', by cases v <;> assumption, fun e => ?_, fun e => ?_⟩
  · exact notFound_of (env := onCloud env v lib (daysReader w first last prefixes) now rnd s') (cloudBlobs_error (k1 e))
  · obtain ⟨l, l1, l2⟩ := k2 e
    obtain ⟨bs, b1, b2⟩ := cloudBlobs_of l1 l2
    exact answered_of (env := onCloud env v lib (daysReader w first last prefixes) now rnd s') hre hl hch hd b1 b2

/-- **C115 (values of a field).**  As `C115_streamed_partial`, of a writer that partitions by the values of a field and a statement
with a partition filter that asks for one value: it is answered as if the dataset were the records that have it. -/
theorem C115_values_partial (F : Str) (flt : PartitionFilter) (hflt : StreamStorage.Asks F flt) (hone : OneValue str field F flt.value records)
    (ha : StreamStorage.Asked (fieldWriter w F date) valid field S calls records) (m : Machine Row)
    (h : Reach c (atStart (fieldWriter w F date) valid str calls clock) m) (hfree : m.owner = none)
    (hempty : m.pool.writers = []) (hplace : Place ls S s ids (handed m.pool.store).length) :
    ∃ (hist : List (Nat × Call Row β)) (left : Nat → List (Call Row β)), Served calls hist left ∧
      (∀ t, m.todo t = (left t).map (op (fieldWriter w F date) valid str)) ∧
      m.pool = run c { clock := clock } (hist.map (fun x => op (fieldWriter w F date) valid str x.2)) ∧
      ∀ j, (handed m.pool.store).length ≤ j →
        ∃ s', inObjects v.service (fieldWriter w F date) ids s m.pool.store j = .ok s' ∧
          let rows := days.flatMap fun t =>
            appended date (fun r => valid r && has str field F flt.value r) (fun u => midnight u = t) hist
          (rows = [] → NotFound (onCloud env v lib (filteredReader w first last prefixes (some flt)) now rnd s') w.dataset) ∧
          (rows ≠ [] → Answered (onCloud env v lib (filteredReader w first last prefixes (some flt)) now rnd s') w.dataset rows) := by
  obtain ⟨hist, left, h1, h2, h3, h4⟩ := CloudStream.C112_filter_reads_value_partial hw hby hfmt date c hc valid str field calls clock s ids
    hr records (allTrue lib) (kept_allTrue hf) now rnd prefixes hallow (fun _ => 0) F flt hflt hone ha m h hfree hempty hplace
  refine ⟨hist, left, h1, h2, h3, fun j hj => ?_⟩
  obtain ⟨s', g1, g1', -, g3⟩ := h4 j hj
  obtain ⟨k1, k2⟩ := g3 _ (lister_of (v := v))
  refine ⟨s', by cases v <;> assumption, fun e => ?_, fun e => ?_⟩
  · exact notFound_of (env := onCloud env v lib (filteredReader w first last prefixes (some flt)) now rnd s') (cloudBlobs_error (k1 e))
  · obtain ⟨l, l1, l2⟩ := k2 e
    obtain ⟨bs, b1, b2⟩ := cloudBlobs_of l1 l2
    exact answered_of (env := onCloud env v lib (filteredReader w first last prefixes (some flt)) now rnd s') hre hl hch hd b1 b2

end

/-! ## A concrete case -/

section
open Mabel.EndToEnd (zJob)
open Mabel.History (feb28 feb29 mar1 daily)
open Mabel.Sql (asciiChars asciiChars_sane good_of)
open Mabel.StreamStorage (demoS demo_range demoBlobIds)

/-- Non-vacuity: two threads take turns until the writer is finalized; every hypothesis holds, of both services, and a statement is
answered about what they have appended. -/
example (v : Which) (now : DateTime) (rnd : Str) : ∃ (m : Machine Row) (hist : List (Nat × Call Row Unit)) (left : Nat → List (Call Row Unit)),
    Served streamCalls hist left ∧ (∀ t < 2, (m.todo t).length = 0) ∧
    ∃ s', inObjects v.service (dayWriter zJob none) demoBlobIds Cloud.demoObjs m.pool.store 6 = .ok s' ∧
      let rows := [feb28, feb29, mar1].flatMap fun t => appended none streamValid (fun u => midnight u = t) hist
      (rows ≠ [] → Answered (onCloud sampleEnv v streamLib (daysReader zJob feb28 mar1 ["tests/".toList]) now rnd s') zJob.dataset rows) := by
  obtain ⟨m, h1, h2, h3, h4, h5⟩ := stream_done
  obtain ⟨hist, left, g1, g2, -, g3⟩ := C115_streamed_partial (env := sampleEnv) v asciiRe_sane sampleLex_sane asciiChars_sane (w := zJob)
    (good_of _ (by decide +kernel)) daily (by decide) none streamConf rfl streamValid (fun _ => []) (fun _ _ => .one ()) streamCalls
    [0, 1, 2, 3] Cloud.demoObjs demoBlobIds demo_range storedRows streamLib stream_faithful now rnd ["tests/".toList] (by decide)
    WriterInit.demo_nested (stream_asked _ (Or.inl rfl)) m h1 h2 h3 (CloudStream.demo_place _ h5.enough)
  obtain ⟨s', b1, -, b3⟩ := g3 6 h5.enough
  exact ⟨m, hist, left, g1, h4, s', b1, b3⟩

example (v : Which) (now : DateTime) (rnd : Str) (m : Machine Row)
    (h1 : Reach streamConf (atStart (dayWriter zJob none) streamValid (fun _ => []) streamCalls [0, 1, 2, 3]) m)
    (h2 : m.owner = none) (h3 : m.pool.writers = []) (h4 : (handed m.pool.store).length ≤ 6) :=
  C115_finalized_stays_partial (env := sampleEnv) v asciiRe_sane sampleLex_sane asciiChars_sane (w := zJob)
    (good_of _ (by decide +kernel)) daily (by decide) none streamConf rfl streamValid (fun _ => []) (fun _ _ => .one ()) streamCalls
    [0, 1, 2, 3] Cloud.demoObjs demoBlobIds demo_range storedRows streamLib stream_faithful now rnd ["tests/".toList] (by decide)
    WriterInit.demo_nested (stream_asked _ (Or.inl rfl)) m m h1 h2 h3 (.refl _) (CloudStream.demo_place _ h4)

example (v : Which) (now : DateTime) (rnd : Str) (m : Machine Row)
    (h1 : Reach streamConf (atStart (hourWriter zJob none) streamValid (fun _ => []) streamCalls [0, 1, 2, 3]) m)
    (h2 : m.owner = none) (h3 : m.pool.writers = []) (h4 : (handed m.pool.store).length ≤ 6) :=
  C115_hours_partial (env := sampleEnv) v asciiRe_sane sampleLex_sane asciiChars_sane (w := zJob)
    (good_of _ (by decide +kernel)) daily (by decide) none streamConf rfl streamValid (fun _ => []) (fun _ _ => .one ()) streamCalls
    [0, 1, 2, 3] Cloud.demoObjs demoBlobIds demo_range storedRows streamLib stream_faithful now rnd ["tests/".toList] (by decide)
    (fun t ht => StreamStorage.usual_by (names := ["tests".toList, "data".toList]) (by decide) (by decide) ht)
    (stream_asked _ (Or.inr rfl)) m h1 h2 h3 (CloudStream.demo_place _ h4)

/-- The values of the fields of the stored records. -/
def streamField (r : Row) (_ : Str) : Targets.Field Str :=
  if r = sampleRow 1 "x" then .one "UK".toList else .many ["UK".toList, "FR".toList]

/-- Two threads that append, by a writer that partitions by a field; one of them also finalizes. -/
def streamFieldCalls : Nat → List (Call Row Str)
  | 0 => [.append ⟨2024, 2, 28, 10, 0, 0⟩ (sampleRow 1 "x") ["country".toList] [["UK".toList]], .finalize]
  | 1 => [.append ⟨2024, 2, 28, 11, 30, 0⟩ (sampleRow 3 "y") ["country".toList] [["UK".toList], ["FR".toList]]]
  | _ => []

theorem stream_field_asked :
    StreamStorage.Asked (fieldWriter zJob "country".toList none) streamValid streamField demoS streamFieldCalls storedRows where
  day := (StreamStorage.demo_asked _ (Or.inl rfl)).day
  ok := by
    intro t a ha
    have enum : ∀ (now : DateTime) (r : Row) (combos : List (List Str)),
        combos.Nodup → (streamField r "country".toList).values.map (fun v => [v]) = combos →
        Targets.placeholders (StreamStorage.pathFor (fieldWriter zJob "country".toList none) streamValid now r) = ["country".toList] →
        (now.valid = true) → demoS (midnight now) →
        StreamStorage.CallOK (fieldWriter zJob "country".toList none) streamValid streamField demoS
          (.append now r ["country".toList] combos) := by
      intro now r combos hnd hc hp h1 h2
      refine ⟨h1, h2, ⟨by simp, by intro n; rw [hp], hnd, ?_⟩⟩
      intro vs
      rw [← hc]
      simp [Targets.product, eq_comm]
    match t with
    | 0 =>
      simp only [streamFieldCalls, List.mem_cons, List.not_mem_nil, or_false] at ha
      rcases ha with rfl | rfl
      · exact enum _ _ _ (by decide) (by decide +kernel) (by decide +kernel) (by decide +kernel) (by decide +kernel)
      · trivial
    | 1 =>
      simp only [streamFieldCalls, List.mem_cons, List.not_mem_nil, or_false] at ha
      subst ha
      exact enum _ _ _ (by decide) (by decide +kernel) (by decide +kernel) (by decide +kernel) (by decide +kernel)
    | n + 2 => cases ha
  records := by
    intro t now r names combos h
    match t with
    | 0 =>
      simp only [streamFieldCalls, List.mem_cons, List.not_mem_nil, or_false, Call.append.injEq, reduceCtorEq] at h
      obtain ⟨-, rfl, -⟩ := h
      simp [storedRows]
    | 1 =>
      simp only [streamFieldCalls, List.mem_cons, List.not_mem_nil, or_false, Call.append.injEq] at h
      obtain ⟨-, rfl, -⟩ := h
      simp [storedRows]
    | n + 2 => cases h

/-- Non-vacuity of `C115_values_partial`. -/
example (v : Which) (now : DateTime) (rnd : Str) : ∃ m, ∃ _ : Reach streamConf
      (atStart (fieldWriter zJob "country".toList none) streamValid id streamFieldCalls [0, 1, 2, 3]) m,
    ∃ (hist : List (Nat × Call Row Str)) (left : Nat → List (Call Row Str)), Served streamFieldCalls hist left ∧
      (∀ t < 2, m.todo t = []) ∧
      ∃ s', inObjects v.service (fieldWriter zJob "country".toList none) demoBlobIds Cloud.demoObjs m.pool.store 6 = .ok s' ∧
        let rows := [feb28, feb29, mar1].flatMap fun t =>
          appended none (fun r => streamValid r && has id streamField "country".toList "FR".toList r) (fun u => midnight u = t) hist
        (rows ≠ [] → Answered (onCloud sampleEnv v streamLib (filteredReader zJob feb28 mar1 ["tests/".toList]
          (some ⟨"country".toList, "==".toList, "FR".toList⟩)) now rnd s') zJob.dataset rows) := by
  have h : (Stream.schedule streamConf (atStart (fieldWriter zJob "country".toList none) streamValid id streamFieldCalls [0, 1, 2, 3])
      (List.replicate 4 0 ++ List.replicate 5 1 ++ List.replicate 6 0)).any (fun m => m.owner.isNone && m.pool.writers.isEmpty &&
      (m.todo 0).isEmpty && (m.todo 1).isEmpty && decide ((handed m.pool.store).length ≤ 6)) = true := by decide +kernel
  cases he : Stream.schedule streamConf (atStart (fieldWriter zJob "country".toList none) streamValid id streamFieldCalls [0, 1, 2, 3])
      (List.replicate 4 0 ++ List.replicate 5 1 ++ List.replicate 6 0) with
  | none => rw [he] at h; cases h
  | some m =>
    rw [he] at h
    simp only [Option.any_some, Bool.and_eq_true, Option.isNone_iff_eq_none, List.isEmpty_iff, decide_eq_true_eq] at h
    have hm := Stream.schedule_reach streamConf _ (.refl _) he
    obtain ⟨hist, left, g1, g2, -, g3⟩ := C115_values_partial (env := sampleEnv) v asciiRe_sane sampleLex_sane asciiChars_sane (w := zJob)
      (good_of _ (by decide +kernel)) daily (by decide) none streamConf rfl streamValid id streamField streamFieldCalls
      [0, 1, 2, 3] Cloud.demoObjs demoBlobIds demo_range storedRows streamLib stream_faithful now rnd ["tests/".toList] (by decide)
      (fun t ht => StreamStorage.usual_by (names := ["tests".toList, "data".toList]) (by decide) (by decide) ht)
      "country".toList ⟨"country".toList, "==".toList, "FR".toList⟩ ⟨rfl, Or.inr rfl, StreamStorage.country_name, by decide⟩
      (by
        intro r _ a ha b hb h1 h2
        have key : ∀ f : Targets.Field Str, f = .one "UK".toList ∨ f = .many ["UK".toList, "FR".toList] → ∀ a ∈ f.values, ∀ b ∈ f.values,
            Text.sanitize (id a) = Text.sanitize "FR".toList → Text.sanitize (id b) = Text.sanitize "FR".toList → a = b := by
          intro f hf
          rcases hf with rfl | rfl <;> decide
        refine key (streamField r "country".toList) ?_ a ha b hb h1 h2
        unfold streamField
        split
        · exact .inl rfl
        · exact .inr rfl)
      stream_field_asked m hm h.1.1.1.1 h.1.1.1.2 (CloudStream.demo_place _ h.2)
    obtain ⟨s', b1, -, b3⟩ := g3 6 h.2
    refine ⟨m, hm, hist, left, g1, ?_, s', b1, b3⟩
    intro t ht
    match t, ht with
    | 0, _ => exact h.1.1.2
    | 1, _ => exact h.1.2

end
end Mabel.SqlReader
