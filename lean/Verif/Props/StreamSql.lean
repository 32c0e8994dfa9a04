import Verif.Spec.Answered
import Verif.Props.ManyStorage

/-!
# C109: SQL statements and filters about what stream writers have stored
-/

namespace Mabel.SqlReader
open Mabel.Py Mabel.Paths Mabel.Dates Mabel.Tokens Mabel.Filters Mabel.Filters.Spec Mabel.Records Mabel.Expression.Spec Mabel.Evaluator
  Mabel.Evaluator.Spec Mabel.SqlReader.Spec Mabel.Listing Mabel.Naming
open Mabel.Expression (sampleLex_sane)
open Mabel.Sql.Spec (Query SaneChars GoodName Parses view)
open Mabel.Tokenizer (asciiRe asciiRe_sane)
open Mabel.Tokenizer.Spec (SaneRe)
open Mabel.Blobs (Gen Lib Item Faithful Torn delivered Names delivered_eq formatOf)
open Mabel.History (Daily rangeReader)
open Mabel.WriterInit (Nested)
open Mabel.Stream (Conf Machine Reach run)
open Mabel.StreamStorage (Setup Call Served appended onDisk op handed dayWriter hourWriter atStart Readable Range Process Writes Made Runs Rooms share)
open Mabel.EndToEnd (midnight)

open Mabel.Disk (Disk read exec)

/-! ## From the blobs that are found to the answers -/

section
variable {env : Env} {dataset : Str} {bs : List (List Row)} {rows : List Row}

theorem answered_of (hre : SaneRe env.re) (hl : Sane env.lex) (hch : SaneChars env.ch) (hd : GoodName env.ch dataset)
    (hbs : env.blobs dataset = .ok bs) (hrows : bs.flatten = rows) : Answered env dataset rows := by
  subst hrows
  exact
    { select := fun hq _ hsel hsrc hgb hhv _ hb hg hs _ hout _ hw ht =>
        C49_select_partial hre hl hch hq hsel hsrc hd hbs hgb hhv hb hg hs hout hw ht
      star := fun hq hsel hsrc hgb hhv hfull _ hw ht => C49_star_partial hre hl hch hq hsel hsrc hd hbs hgb hhv hfull hw ht
      group := fun hq _ hsel hsrc _ _ hgb hcols _ _ hb hr hne hgl hn _ hw _ hrs hhas hf hfew hdup hfine _ hhv ht =>
        C49_group_partial hre hl hch hq hsel hsrc hd hbs hgb hcols hb hr hne hgl hn hw hrs hhas hf hfew hdup hfine hhv ht
      total := fun hq _ hsel hsrc hgb _ _ hb hr hne hgl hn _ hw _ hrs hdup hfine _ hhv ht =>
        C49_total_partial hre hl hch hq hsel hsrc hd hbs hgb hb hr hne hgl hn hw hrs hdup hfine hhv ht
      lists := fun {ass} hne happ {meets} hm => by
        refine ⟨Gen.of ((bs.flatten.filter meets).map id), ?_, rfl, List.map_id _⟩
        exact open_pred (Or.inr rfl) (tokens_star _) hbs (fun _ _ => rfl) (fun r hr => verdict_nested hne (happ r hr) (hm r hr))
      text := fun {t cond} hw => by
        refine ⟨Gen.of ((bs.flatten.filter cond).map id), ?_, rfl, List.map_id _⟩
        exact open_where (w := some t) (cond := cond) (hidden := fun _ => False) hre hl hbs hw (tokens_star _) (fun _ _ => rfl) nofun
          (fun _ _ _ _ _ => rfl) }

theorem notFound_of (hbs : env.blobs dataset = .error .dataNotFound) : NotFound env dataset := by
  intro raw p hp hsrc g hg
  have := answers_fail hg hp hsrc hbs
  subst this
  exact ⟨rfl, rfl⟩

end

theorem torn_allTrue {ρ : Type} {codec : Writer.Codec ρ} {lib : Lib ρ} {l : List ρ} (h : Torn codec lib l) :
    Torn codec (allTrue lib) l :=
  ⟨h.json, h.zstd, h.parquet⟩

theorem readable_allTrue {ρ : Type} {codec : Writer.Codec ρ} {lib : Lib ρ} {l : List ρ} (h : Faithful codec lib l)
    (h' : Torn codec lib l) : Readable codec (allTrue lib) l :=
  ⟨faithful_allTrue h, torn_allTrue h', fun _ _ => rfl⟩

section
variable {w : Job} {first last : DateTime} {prefixes : List Str} {lib : Lib Row} {now : DateTime} {rnd : Str} {d' : Disk}

/-- What a reader delivers, with no record taken for nothing, is what statements are about. -/
theorem blobs_of {l : List Str} {rows : List Row}
    (h2 : Reader.openReader (rangeReader w first last prefixes) now rnd (diskBlobsAt d'.names) = .ok (0, l)) (h3 : Names l)
    (h4 : delivered (fun _ => 0) (allTrue lib) {} (read d') l = rows.map .row) :
    ∃ bs, storedBlobs lib (daysReader w first last prefixes) now rnd d' w.dataset = .ok bs ∧ bs.flatten = rows := by
  rw [(delivered_eq _ _ _ _ _ h3).1] at h4
  refine ⟨(sorted strLe l).map (fun b => blobRows lib b (Disk.read d' b)), ?_, ?_⟩
  · unfold storedBlobs
    have : daysReader w first last prefixes w.dataset = rangeReader w first last prefixes := rfl
    rw [this, h2]
  · simp only [blobRows_eq]
    rw [flatten_rows, h4, filterMap_rows]

theorem blobs_error {e : Err}
    (h2 : Reader.openReader (rangeReader w first last prefixes) now rnd (diskBlobsAt d'.names) = .error e) :
    storedBlobs lib (daysReader w first last prefixes) now rnd d' w.dataset = .error e := by
  unfold storedBlobs
  have : daysReader w first last prefixes w.dataset = rangeReader w first last prefixes := rfl
  rw [this, h2]

end

/-! ## C109, stream writers with a folder for each day -/

section
variable {β : Type} {env : Env} (hre : SaneRe env.re) (hl : Sane env.lex) (hch : SaneChars env.ch) {w : Job}
  (hd : GoodName env.ch w.dataset) {ls : List (List Paths.Piece)} (hw : Daily w ls) (hfmt : w.format ≠ "text".toList)
  (date : Option DateTime) (c : Conf Row) (hc : c.blob.format = formatOf w.format) (valid : Row → Bool) (str : β → Str)
  (field : Row → Str → Targets.Field β) {S : DateTime → Prop} (calls : Nat → List (Call Row β)) (clock : List Int)
  (d : Disk) (ids : List Str) {first last : DateTime} {days : List DateTime} (hr : Range S first last days)
  (records : List Row) (lib : Lib Row) (hf : Faithful c.blob.codec lib records) (ht : Torn c.blob.codec lib records)
  (now : DateTime) (rnd : Str) (prefixes : List Str) (hallow : Reader.allowed prefixes w.dataset = true)
include hre hl hch hd hw hfmt hc hr hf ht hallow

/-- **C109 (streamed is queried).**  Threads call a stream writer and, at a moment when no call is under way and no writer is open,
as after `finalize`, the disk has taken all its steps.  Statements and filters about these days are then answered as if the
dataset were exactly the valid records appended on each day (or for it, if the writer has a date), in the order in which the
appends obtained the writer; if there are none, every statement raises DataNotFoundError.

Missing for the full property: the statements that C49 leaves out. -/
theorem C109_streamed_partial (hn : Nested ls) (ha : StreamStorage.Asked (dayWriter w date) valid field S calls records) (m : Machine Row)
    (h : Reach c (atStart (dayWriter w date) valid str calls clock) m) (hfree : m.owner = none)
    (hempty : m.pool.writers = []) (hroom : StreamStorage.Room ls S d ids (handed m.pool.store).length) :
    ∃ (hist : List (Nat × Call Row β)) (left : Nat → List (Call Row β)), Served calls hist left ∧
      (∀ t, m.todo t = (left t).map (op (dayWriter w date) valid str)) ∧
      m.pool = run c { clock := clock } (hist.map (fun x => op (dayWriter w date) valid str x.2)) ∧
      ∀ k, StreamStorage.Written (dayWriter w date) ids m.pool.store k →
        ∃ d', onDisk (dayWriter w date) ids d m.pool.store k = .ok d' ∧
          let rows := days.flatMap fun t => appended date valid (fun u => midnight u = t) hist
          (rows = [] → NotFound (stored env lib (daysReader w first last prefixes) now rnd d') w.dataset) ∧
          (rows ≠ [] → Answered (stored env lib (daysReader w first last prefixes) now rnd d') w.dataset rows) := by
  obtain ⟨hist, left, h1, h2, h3, h4⟩ := StreamStorage.C89_streamed_is_read hw hn hfmt date c hc valid str field calls clock d ids hr records
    (allTrue lib) (readable_allTrue hf ht) now rnd prefixes hallow (fun _ => 0) ha m h hfree hempty hroom
  refine ⟨hist, left, h1, h2, h3, fun k hk => ?_⟩
  obtain ⟨d', g1, g2, g3⟩ := h4 k hk
  refine ⟨d', g1, fun e => ?_, fun e => ?_⟩
  · exact notFound_of (env := stored env lib (daysReader w first last prefixes) now rnd d') (blobs_error (g2 e))
  · obtain ⟨l, l1, l2, l3⟩ := g3 e
    obtain ⟨bs, b1, b2⟩ := blobs_of l1 l2 l3
    exact answered_of (env := stored env lib (daysReader w first last prefixes) now rnd d') hre hl hch hd b1 b2

/-- **C109 (finalized is kept).**  At one moment no call was under way and no writer was open.  At any later moment, with any calls
under way and the disk at any step after those for what was stored by then, even if it is the last it takes, statements and
filters are answered as if the dataset were, day by day, the records appended before and then the first so many of those appended
since, in the order of the appends.

Missing for the full property: the statements that C49 leaves out. -/
theorem C109_finalized_stays_partial (hn : Nested ls) (ha : StreamStorage.Asked (dayWriter w date) valid field S calls records)
    (m1 m2 : Machine Row) (h1 : Reach c (atStart (dayWriter w date) valid str calls clock) m1) (hfree : m1.owner = none)
    (hempty : m1.pool.writers = []) (h2 : Reach c m1 m2) (hroom : StreamStorage.Room ls S d ids (handed m2.pool.store).length) :
    ∃ (hist1 hist2 : List (Nat × Call Row β)) (left1 left2 : Nat → List (Call Row β)),
      Served calls hist1 left1 ∧ Served left1 hist2 left2 ∧
      (∀ t, m2.todo t = (left2 t).map (op (dayWriter w date) valid str)) ∧
      m1.pool = run c { clock := clock } (hist1.map (fun x => op (dayWriter w date) valid str x.2)) ∧
      ∀ k, StreamStorage.Written (dayWriter w date) ids m1.pool.store k →
        ∃ (d' : Disk) (rows : DateTime → List Row), onDisk (dayWriter w date) ids d m2.pool.store k = .ok d' ∧
          (∀ t ∈ days, appended date valid (fun u => midnight u = t) hist1 <+: rows t ∧
            rows t <+: appended date valid (fun u => midnight u = t) (hist1 ++ hist2)) ∧
          ((NotFound (stored env lib (daysReader w first last prefixes) now rnd d') w.dataset ∧ ∀ t ∈ days, rows t = []) ∨
            Answered (stored env lib (daysReader w first last prefixes) now rnd d') w.dataset (days.flatMap rows)) := by
  obtain ⟨hist1, hist2, left1, left2, s1, s2, t2, hrun, hk⟩ := StreamStorage.C89_finalized_stays hw hn hfmt date c hc valid str field calls
    clock d ids hr records (allTrue lib) (readable_allTrue hf ht) now rnd prefixes hallow (fun _ => 0) ha m1 m2 h1 hfree hempty h2 hroom
  refine ⟨hist1, hist2, left1, left2, s1, s2, t2, hrun, fun k hwr => ?_⟩
  obtain ⟨d', rows, g1, g2, g3⟩ := hk k hwr
  refine ⟨d', rows, g1, g2, ?_⟩
  rcases g3 with ⟨e, g3⟩ | ⟨l, l1, l2, l3⟩
  · exact Or.inl ⟨notFound_of (env := stored env lib (daysReader w first last prefixes) now rnd d') (blobs_error e), g3⟩
  · obtain ⟨bs, b1, b2⟩ := blobs_of l1 l2 l3
    exact Or.inr (answered_of (env := stored env lib (daysReader w first last prefixes) now rnd d') hre hl hch hd b1 b2)

/-- **C109 (by the hour).**  As `C109_streamed_partial`, of a writer that partitions each day by the hour: the records of a day are
in the order of the hours and, within an hour, of the appends. -/
theorem C109_hours_partial (hby : ∀ t, History.Day t → contains "by_".toList (join ['/'] (History.folderOf ls t)) = false)
    (ha : StreamStorage.Asked (hourWriter w date) valid field S calls records) (m : Machine Row)
    (h : Reach c (atStart (hourWriter w date) valid str calls clock) m) (hfree : m.owner = none)
    (hempty : m.pool.writers = []) (hroom : StreamStorage.Room ls S d ids (handed m.pool.store).length) :
    ∃ (hist : List (Nat × Call Row β)) (left : Nat → List (Call Row β)), Served calls hist left ∧
      (∀ t, m.todo t = (left t).map (op (hourWriter w date) valid str)) ∧
      m.pool = run c { clock := clock } (hist.map (fun x => op (hourWriter w date) valid str x.2)) ∧
      ∀ k, StreamStorage.Written (hourWriter w date) ids m.pool.store k →
        ∃ d', onDisk (hourWriter w date) ids d m.pool.store k = .ok d' ∧
          let rows := days.flatMap fun t => (List.range 24).flatMap fun h => appended date valid (fun u => midnight u = t ∧ u.hour = h) hist
          (rows = [] → NotFound (stored env lib (daysReader w first last prefixes) now rnd d') w.dataset) ∧
          (rows ≠ [] → Answered (stored env lib (daysReader w first last prefixes) now rnd d') w.dataset rows) := by
  obtain ⟨hist, left, h1, h2, h3, h4⟩ := StreamStorage.C89_hours_are_read hw hby hfmt date c hc valid str field calls clock d ids hr records
    (allTrue lib) (readable_allTrue hf ht) now rnd prefixes hallow (fun _ => 0) ha m h hfree hempty hroom
  refine ⟨hist, left, h1, h2, h3, fun k hk => ?_⟩
  obtain ⟨d', g1, g2, g3⟩ := h4 k hk
  refine ⟨d', g1, fun e => ?_, fun e => ?_⟩
  · exact notFound_of (env := stored env lib (daysReader w first last prefixes) now rnd d') (blobs_error (g2 e))
  · obtain ⟨l, l1, l2, l3⟩ := g3 e
    obtain ⟨bs, b1, b2⟩ := blobs_of l1 l2 l3
    exact answered_of (env := stored env lib (daysReader w first last prefixes) now rnd d') hre hl hch hd b1 b2

end

/-! ## C109, several processes -/

section
variable {β : Type} {env : Env} (hre : SaneRe env.re) (hl : Sane env.lex) (hch : SaneChars env.ch) {w : Job}
  (hd : GoodName env.ch w.dataset) {ls : List (List Paths.Piece)} (hw : Daily w ls) (hn : Nested ls) (hfmt : w.format ≠ "text".toList)
  {S : DateTime → Prop} (N : Nat) (hN : 0 < N) (ps : Nat → Process Row β)
  (hset : ∀ i < N, ∃ date, (ps i).setup = dayWriter w date) (field : Row → Str → Targets.Field β) (lib : Lib Row)
  (records : List Row) (hp : ∀ i < N, Writes w field S lib records (ps i)) (m1 m2 : Nat → Machine Row)
  (hm : ∀ i < N, Runs (ps i) (m1 i) (m2 i)) (d : Disk) (hroom : Rooms ls S d N ps m2) {first last : DateTime}
  {days : List DateTime} (hr : Range S first last days) (now : DateTime) (rnd : Str) (prefixes : List Str)
  (hallow : Reader.allowed prefixes w.dataset = true)
include hre hl hch hd hw hn hfmt hN hset hp hm hroom hr hallow

/-- **C109 (processes).**  Threads of any number of processes call stream writers for one dataset, each process with its own writer;
some processes may be dead, some at work, and the disk has taken the first so many of the steps of each, mixed in any way.
Statements and filters are answered as if the dataset were, day by day, records of the processes of which those of one process are
the first so many it appended on that day, in the order of the appends, and among them all those appended before a moment at which
no writer of it was open (as after `finalize`) if the steps for what was stored by then have been taken.

Missing for the full property: the statements that C49 leaves out, and what C91 leaves out. -/
theorem C109_processes_partial :
    ∃ (hist1 hist2 : Nat → List (Nat × Call Row β)) (ops : Nat → List Disk.Op),
      (∀ i < N, Made (ps i) (m1 i) (m2 i) (hist1 i) (hist2 i) ∧ (ps i).steps (m2 i) = .ok (ops i)) ∧
      ∀ os : List (Nat × Disk.Op), (∀ x ∈ os, x.1 < N) → (∀ i < N, share os i <+: ops i) →
      ∃ (d' : Disk) (rows : DateTime → List (Nat × Row)), exec d (os.map (·.2)) = .ok d' ∧
        (∀ i < N, ∀ t ∈ days, share (rows t) i <+: (ps i).appended (fun u => midnight u = t) (hist1 i ++ hist2 i)) ∧
        (∀ i < N, (m1 i).pool.writers = [] →
          StreamStorage.Written (ps i).setup (ps i).ids (m1 i).pool.store (share os i).length → ∀ t ∈ days,
            (ps i).appended (fun u => midnight u = t) (hist1 i) <+: share (rows t) i) ∧
        (∀ t, ∀ x ∈ rows t, x.1 < N) ∧
        ((NotFound (stored env lib (daysReader w first last prefixes) now rnd d') w.dataset ∧ ∀ t ∈ days, rows t = []) ∨
          Answered (stored env lib (daysReader w first last prefixes) now rnd d') w.dataset
            (days.flatMap fun t => (rows t).map (·.2))) := by
  obtain ⟨hist1, hist2, ops, h1, hk⟩ := StreamStorage.C91_processes_partial hw hn hfmt N hN ps hset field (allTrue lib) records
    (fun i hi => ⟨(hp i hi).format, (hp i hi).asked, readable_allTrue (hp i hi).readable.faithful (hp i hi).readable.torn⟩)
    m1 m2 hm d hroom hr now rnd prefixes hallow (fun _ => 0)
  refine ⟨hist1, hist2, ops, h1, fun os a1 a2 => ?_⟩
  obtain ⟨d', rows, g1, g2, g3, -, g5, g6⟩ := hk os a1 a2
  refine ⟨d', rows, g1, g2, g3, g5, ?_⟩
  rcases g6 with ⟨e, g6⟩ | ⟨l, l1, l2, l3⟩
  · exact Or.inl ⟨notFound_of (env := stored env lib (daysReader w first last prefixes) now rnd d') (blobs_error e), g6⟩
  · obtain ⟨bs, b1, b2⟩ := blobs_of l1 l2 l3
    exact Or.inr (answered_of (env := stored env lib (daysReader w first last prefixes) now rnd d') hre hl hch hd b1 b2)

end

/-! ## Concrete threads and statements -/

section
open Mabel.EndToEnd (zJob)
open Mabel.History (demoStart feb28 feb29 mar1 daily)
open Mabel.Sql (asciiChars asciiChars_sane good_of)
open Mabel.StreamStorage (demoS demo_range demoBlobIds demo_room demo_enumerates)

/-- The libraries for the stored records, with a Parquet that ends in a mark. -/
def streamCodec : Writer.Codec Row :=
  { rowCodec with parquet := fun g => g.map (fun r => (storedRows.idxOf r).toUInt8 + 1) ++ [0] }

def streamLib : Lib Row :=
  { rowLib with
    parquet := fun b => if b.getLast? = some 0 then .ok (b.dropLast.map (fun x => storedRows.getD (x.toNat - 1) [])) else .error .valueError }

theorem stream_faithful : Faithful streamCodec streamLib storedRows where
  json := row_faithful.json
  no_lf := row_faithful.no_lf
  no_cr := row_faithful.no_cr
  zstd := row_faithful.zstd
  parquet := by
    intro g hg
    have h : ∀ r ∈ storedRows, storedRows.getD (((storedRows.idxOf r).toUInt8 + 1).toNat - 1) [] = r := by decide +kernel
    show (if (g.map (fun r : Row => (storedRows.idxOf r).toUInt8 + 1) ++ [0]).getLast? = some 0 then _ else _) = _
    rw [if_pos (by simp)]
    show Except.ok (((g.map (fun r : Row => (storedRows.idxOf r).toUInt8 + 1) ++ [0]).dropLast).map _) = _
    rw [List.dropLast_concat, List.map_map]
    exact congrArg Except.ok ((List.map_congr_left (fun r hr => h r (hg hr))).trans (List.map_id _))

theorem stream_torn : Torn streamCodec streamLib storedRows where
  json := by
    intro r _ c hc hne hnil
    refine absurd (hc.eq_of_length ?_) hne
    have h1 := hc.length_le
    have h2 := List.length_pos_iff.2 hnil
    have h3 : (streamCodec.serialise r).length = 1 := rfl
    omega
  zstd := by
    intro b c hc
    cases c with
    | nil => exact Or.inl ⟨_, rfl⟩
    | cons x c =>
      have h : x :: c <+: 1 :: b := hc
      rw [List.cons_prefix_cons] at h
      obtain ⟨rfl, h⟩ := h
      exact Or.inr ⟨c, rfl, h⟩
  parquet := by
    intro g hg c hc hne
    refine ⟨.valueError, ?_⟩
    show (if c.getLast? = some 0 then _ else _) = _
    rw [if_neg]
    have hc : c <+: g.map (fun r => (storedRows.idxOf r).toUInt8 + 1) ++ [0] := hc
    have hne : c ≠ g.map (fun r => (storedRows.idxOf r).toUInt8 + 1) ++ [0] := hne
    intro hl
    have h0 : (0 : UInt8) ∈ c := List.mem_of_getLast? hl
    have hp : c <+: g.map (fun r => (storedRows.idxOf r).toUInt8 + 1) := by
      rcases List.prefix_concat_iff.1 hc with h | h
      · exact absurd h hne
      · exact h
    obtain ⟨r, hr, hr'⟩ := List.mem_map.1 (hp.subset h0)
    have h : ∀ r ∈ storedRows, (storedRows.idxOf r).toUInt8 + 1 ≠ 0 := by decide +kernel
    exact h r (hg hr) hr'

def streamConf : Conf Row := { blob := { rowConfig with codec := streamCodec }, poolSize := 2, idle := 5 }

/-- Two threads that append, one of them also finalizes.  The record with 7 is not valid. -/
def streamCalls : Nat → List (Call Row Unit)
  | 0 => [.append ⟨2024, 2, 28, 10, 0, 0⟩ (sampleRow 1 "x") [] [[]], .append ⟨2024, 3, 1, 0, 30, 0⟩ (sampleRow 0 "z") [] [[]], .finalize]
  | 1 => [.append ⟨2024, 2, 28, 11, 0, 0⟩ (sampleRow 7 "w") [] [[]], .append ⟨2024, 2, 28, 11, 30, 0⟩ (sampleRow 3 "y") [] [[]]]
  | _ => []

def streamValid (r : Row) : Bool := r ≠ sampleRow 7 "w"

theorem stream_asked (s : Setup) (hs : s = dayWriter zJob none ∨ s = hourWriter zJob none) :
    StreamStorage.Asked s streamValid (fun _ _ => .one ()) demoS streamCalls storedRows where
  day := (StreamStorage.demo_asked s hs).day
  ok := by
    intro t a ha
    match t with
    | 0 =>
      simp only [streamCalls, List.mem_cons, List.not_mem_nil, or_false] at ha
      rcases ha with rfl | rfl | rfl
      · refine ⟨?_, ?_, demo_enumerates _ ?_⟩ <;> rcases hs with rfl | rfl <;> decide +kernel
      · refine ⟨?_, ?_, demo_enumerates _ ?_⟩ <;> rcases hs with rfl | rfl <;> decide +kernel
      · trivial
    | 1 =>
      simp only [streamCalls, List.mem_cons, List.not_mem_nil, or_false] at ha
      rcases ha with rfl | rfl
      · refine ⟨?_, ?_, demo_enumerates _ ?_⟩ <;> rcases hs with rfl | rfl <;> decide +kernel
      · refine ⟨?_, ?_, demo_enumerates _ ?_⟩ <;> rcases hs with rfl | rfl <;> decide +kernel
    | n + 2 => cases ha
  records := by
    intro t now r names combos h
    match t with
    | 0 =>
      simp only [streamCalls, List.mem_cons, List.not_mem_nil, or_false, Call.append.injEq, reduceCtorEq] at h
      rcases h with ⟨-, rfl, -⟩ | ⟨-, rfl, -⟩ <;> simp [storedRows]
    | 1 =>
      simp only [streamCalls, List.mem_cons, List.not_mem_nil, or_false, Call.append.injEq, reduceCtorEq] at h
      rcases h with ⟨-, rfl, -⟩ | ⟨-, rfl, -⟩ <;> simp [storedRows]
    | n + 2 => cases h

/-- Non-vacuity: the threads take turns until the writer is finalized; then all hypotheses of `C109_streamed_partial` hold. -/
theorem stream_done : ∃ m, Reach streamConf (atStart (dayWriter zJob none) streamValid (fun _ => []) streamCalls [0, 1, 2, 3]) m ∧
    m.owner = none ∧ m.pool.writers = [] ∧ (∀ t < 2, (m.todo t).length = 0) ∧
    StreamStorage.Room demoFolders demoS demoStart demoBlobIds (handed m.pool.store).length := by
  have h : (Stream.schedule streamConf (atStart (dayWriter zJob none) streamValid (fun _ => []) streamCalls [0, 1, 2, 3])
      (List.replicate 4 0 ++ List.replicate 8 1 ++ List.replicate 11 0)).any (fun m => m.owner.isNone && m.pool.writers.isEmpty &&
      (m.todo 0).isEmpty && (m.todo 1).isEmpty && decide ((handed m.pool.store).length ≤ 6)) = true := by decide +kernel
  cases he : Stream.schedule streamConf (atStart (dayWriter zJob none) streamValid (fun _ => []) streamCalls [0, 1, 2, 3])
      (List.replicate 4 0 ++ List.replicate 8 1 ++ List.replicate 11 0) with
  | none => rw [he] at h; cases h
  | some m =>
    rw [he] at h
    simp only [Option.any_some, Bool.and_eq_true, Option.isNone_iff_eq_none, List.isEmpty_iff, decide_eq_true_eq] at h
    refine ⟨m, Stream.schedule_reach streamConf _ (.refl _) he, h.1.1.1.1, h.1.1.1.2, ?_, demo_room _ h.2⟩
    intro t ht
    match t, ht with
    | 0, _ => rw [h.1.1.2]; rfl
    | 1, _ => rw [h.1.2]; rfl

example (now : DateTime) (rnd : Str) (m : Machine Row)
    (h1 : Reach streamConf (atStart (dayWriter zJob none) streamValid (fun _ => []) streamCalls [0, 1, 2, 3]) m)
    (h2 : m.owner = none) (h3 : m.pool.writers = [])
    (h4 : StreamStorage.Room demoFolders demoS demoStart demoBlobIds (handed m.pool.store).length) :=
  C109_streamed_partial (env := sampleEnv) asciiRe_sane sampleLex_sane asciiChars_sane (w := zJob) (good_of _ (by decide +kernel)) daily
    (by decide) none streamConf rfl streamValid (fun _ => []) (fun _ _ => .one ()) streamCalls [0, 1, 2, 3] demoStart demoBlobIds
    demo_range storedRows streamLib stream_faithful stream_torn now rnd ["tests/".toList] (by decide) WriterInit.demo_nested
    (stream_asked _ (Or.inl rfl)) m h1 h2 h3 h4

example (now : DateTime) (rnd : Str) (m : Machine Row)
    (h1 : Reach streamConf (atStart (dayWriter zJob none) streamValid (fun _ => []) streamCalls [0, 1, 2, 3]) m)
    (h2 : m.owner = none) (h3 : m.pool.writers = [])
    (h4 : StreamStorage.Room demoFolders demoS demoStart demoBlobIds (handed m.pool.store).length) :=
  C109_finalized_stays_partial (env := sampleEnv) asciiRe_sane sampleLex_sane asciiChars_sane (w := zJob) (good_of _ (by decide +kernel)) daily
    (by decide) none streamConf rfl streamValid (fun _ => []) (fun _ _ => .one ()) streamCalls [0, 1, 2, 3] demoStart demoBlobIds
    demo_range storedRows streamLib stream_faithful stream_torn now rnd ["tests/".toList] (by decide) WriterInit.demo_nested
    (stream_asked _ (Or.inl rfl)) m m h1 h2 h3 (.refl _) h4

/-- Non-vacuity of `C109_hours_partial`. -/
example (now : DateTime) (rnd : Str) : ∃ m, ∃ _ : Reach streamConf
      (atStart (hourWriter zJob none) streamValid (fun _ => []) streamCalls [0, 1, 2, 3]) m,
    ∃ (hist : List (Nat × Call Row Unit)) (left : Nat → List (Call Row Unit)), Served streamCalls hist left ∧
      (∀ t, m.todo t = (left t).map (op (hourWriter zJob none) streamValid (fun _ => []))) ∧ (∀ t < 2, m.todo t = []) := by
  have h : (Stream.schedule streamConf (atStart (hourWriter zJob none) streamValid (fun _ => []) streamCalls [0, 1, 2, 3])
      (List.replicate 4 0 ++ List.replicate 8 1 ++ List.replicate 12 0)).any (fun m => m.owner.isNone && m.pool.writers.isEmpty &&
      (m.todo 0).isEmpty && (m.todo 1).isEmpty && decide ((handed m.pool.store).length ≤ 6)) = true := by decide +kernel
  cases he : Stream.schedule streamConf (atStart (hourWriter zJob none) streamValid (fun _ => []) streamCalls [0, 1, 2, 3])
      (List.replicate 4 0 ++ List.replicate 8 1 ++ List.replicate 12 0) with
  | none => rw [he] at h; cases h
  | some m =>
    rw [he] at h
    simp only [Option.any_some, Bool.and_eq_true, Option.isNone_iff_eq_none, List.isEmpty_iff, decide_eq_true_eq] at h
    have hm := Stream.schedule_reach streamConf _ (.refl _) he
    obtain ⟨hist, left, a1, a2, -⟩ := C109_hours_partial (env := sampleEnv) asciiRe_sane sampleLex_sane asciiChars_sane (w := zJob)
      (good_of _ (by decide +kernel)) daily (by decide) none streamConf rfl streamValid (fun _ => []) (fun _ _ => .one ()) streamCalls
      [0, 1, 2, 3] demoStart demoBlobIds demo_range storedRows streamLib stream_faithful stream_torn now rnd ["tests/".toList] (by decide)
      (fun t ht => StreamStorage.usual_by (names := ["tests".toList, "data".toList]) (by decide) (by decide) ht)
      (stream_asked _ (Or.inr rfl)) m hm h.1.1.1.1 h.1.1.1.2 (demo_room _ h.2)
    refine ⟨m, hm, hist, left, a1, a2, ?_⟩
    intro t ht
    match t, ht with
    | 0, _ => exact h.1.1.2
    | 1, _ => exact h.1.2

theorem tame_stored {env : Env} {lib : Lib Row} {reader : Str → Reader.Config} {now : DateTime} {rnd : Str} {d' : Disk} {q : Query}
    {rows : List Row} (h : Tame env q rows) : Tame (stored env lib reader now rnd d') q rows :=
  ⟨fun h' => ⟨(h.separated h').names, (h.separated h').values, (h.separated h').hashes⟩, h.comparable, h.few, h.positive⟩

/-- What it is to be answered: a statement about the records of the first day. -/
example (now : DateTime) (rnd : Str) (d' : Disk)
    (h : Answered (stored sampleEnv streamLib (daysReader zJob feb28 mar1 ["tests/".toList]) now rnd d') "tests/data".toList
      [sampleRow 1 "x", sampleRow 3 "y", sampleRow 0 "z"]) :
    ∃ g, Answers (stored sampleEnv streamLib (daysReader zJob feb28 mar1 ["tests/".toList]) now rnd d') rawStored g ∧
      g.raised = none ∧ g.items = [sampleRow 1 "x", sampleRow 3 "y"] := by
  obtain ⟨g, h1, h2, h3⟩ := h.star (raw := rawStored) asks_stored rfl rfl rfl rfl nofun (where_pos (fun h => h))
    (tame_stored (plain_query _ _ rfl rfl rfl))
  refine ⟨g, h1, h2, ?_⟩
  have h3 : g.items = _ := h3
  rw [h3]
  decide +kernel

/-- Two processes with these calls, and identifiers apart: the hypotheses of `C109_processes_partial`. -/
def streamProcess (ids : List Str) : Process Row Unit :=
  { setup := dayWriter zJob none, conf := streamConf, valid := streamValid, str := fun _ => [], calls := streamCalls,
    clock := [0, 1, 2, 3], ids := ids }

theorem stream_writes (ids : List Str) : Writes zJob (fun _ _ => .one ()) demoS streamLib storedRows (streamProcess ids) where
  format := rfl
  asked := stream_asked _ (Or.inl rfl)
  readable := ⟨stream_faithful, stream_torn, by decide +kernel⟩

example (now : DateTime) (rnd : Str) : ∃ m : Nat → Machine Row,
    ∃ (hist1 hist2 : Nat → List (Nat × Call Row Unit)) (ops : Nat → List Disk.Op), ∀ i < 2,
      Made (streamProcess (if i = 0 then demoBlobIds else StreamStorage.otherIds)) (m i) (m i) (hist1 i) (hist2 i) ∧
      (streamProcess (if i = 0 then demoBlobIds else StreamStorage.otherIds)).steps (m i) = .ok (ops i) ∧
      (m i).pool.writers = [] := by
  obtain ⟨m, h1, h2, h3, -, h5⟩ := stream_done
  have h6 := StreamStorage.demo_rooms (ids := StreamStorage.otherIds) (by decide) (by unfold HexId; decide) (by decide) (by decide)
    (fun _ => (StreamStorage.atOnce 0).start) (by intro i _; exact Nat.zero_le _)
  have hroom : Rooms demoFolders demoS demoStart 2
      (fun i => streamProcess (if i = 0 then demoBlobIds else StreamStorage.otherIds)) (fun _ => m) :=
    ⟨h6.fresh, h6.nodup, fun i hi => h5.enough.trans (by
      show demoBlobIds.length ≤ List.length (if i = 0 then demoBlobIds else StreamStorage.otherIds)
      split <;> decide), h6.hex, h6.order, h6.apart⟩
  obtain ⟨hist1, hist2, ops, h, -⟩ := C109_processes_partial (env := sampleEnv) asciiRe_sane sampleLex_sane asciiChars_sane (w := zJob)
    (good_of _ (by decide +kernel)) daily WriterInit.demo_nested (by decide) 2 (by decide) _ (fun _ _ => ⟨none, rfl⟩) (fun _ _ => .one ())
    streamLib storedRows (fun i _ => stream_writes _) (fun _ => m) (fun _ => m) (fun i _ => ⟨h1, h2, .refl _⟩) demoStart hroom demo_range
    now rnd ["tests/".toList] (by decide)
  exact ⟨fun _ => m, hist1, hist2, ops, fun i hi => ⟨(h i hi).1, (h i hi).2, h3⟩⟩

end
end Mabel.SqlReader
