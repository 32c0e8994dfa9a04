import Verif.Props.Blobs
import Verif.Props.Reader
import Verif.Props.Naming

/-!
# From the writer to the reader: C72

The parts of the model put together: the batch writer (`Verif.Model.Writer`), the names it gives
(`Verif.Model.Naming`), the listing and choice of blobs (`Verif.Model.Listing`, `Verif.Model.Reader`),
decoding (`Verif.Model.Blobs`) and the serial reader (`Verif.Model.Cursor`).
-/

namespace Mabel.EndToEnd
open Mabel.Py Mabel.Paths Mabel.Listing Mabel.Spec Mabel.Naming Mabel.Blobs Mabel.Dates
variable {ρ : Type}

/-- The data blobs a run of the batch writer leaves: the calls, then a successful `finalize`. -/
def writtenBlobs (c : Writer.Config ρ) (calls : List (Writer.Op ρ)) : List Bytes :=
  Writer.Spec.dataBlobs (Writer.run c {} (calls ++ [.finalize false])).store

/-- A reader of the job's dataset for one day. -/
def dayReader (w : Job) (freshness : Str) (prefixes : List Str) : Reader.Config where
  dataset := w.dataset
  partitions := w.partitions
  filter := none
  start := .date w.date.year w.date.month w.date.day
  stop := .date w.date.year w.date.month w.date.day
  freshness := freshness
  prefixes := prefixes

/-- Midnight of a job's day. -/
def midnight (d : DateTime) : DateTime := ⟨d.year, d.month, d.day, 0, 0, 0⟩

theorem listing_day (w : Job) (freshness : Str) (prefixes : List Str) (now : DateTime) (rnd : Str)
    (blobsAt : Posix → List Str) :
    Reader.listing (dayReader w freshness prefixes) now rnd blobsAt 0
      = listBlobs (readerDataset w.dataset w.partitions) rnd none blobsAt [midnight w.date] := by
  have hl : (midnight w.date).le (midnight w.date) = true := by
    simp [DateTime.le]
  have hd : readerDates now (dayReader w freshness prefixes).start (dayReader w freshness prefixes).stop
      = (midnight w.date, midnight w.date) := by
    show (if (midnight w.date).le (midnight w.date) then _ else _) = _
    rw [if_pos hl]
    rfl
  unfold Reader.listing
  rw [hd]
  simp only [Reader.stepBack]
  have hfl : (midnight w.date).floorHour = midnight w.date := rfl
  have hr : dateRange now (.datetime (midnight w.date)) (.datetime (midnight w.date)) = .ok [midnight w.date] := by
    unfold dateRange
    simp only [parseArg, Option.getD_some, hfl, Nat.lt_irrefl, if_false, Nat.sub_self]
    have : (midnight w.date).addHours 0 = midnight w.date := rfl
    simp [this]
  rw [hr]
  rfl

/-- What storage lists beneath the folder of the date. -/
theorem disk_mem {w : Job} {ls : List (List Piece)} (h : w.OK ls) {hs : List Batch}
    (hv : ∀ b ∈ hs, b.now.valid = true) (hi : ∀ b ∈ hs, ∀ i ∈ b.ids, HexId i) {files : List Posix}
    (hd : Holds w hs files ⟨[], ls.map (filled w.date)⟩) (x : Str) :
    x ∈ diskBlobsAt files ⟨[], ls.map (filled w.date)⟩ ↔ ∃ b ∈ hs, ∃ y ∈ b.framed w ls, x = y.path := by
  unfold diskBlobsAt
  rw [List.mem_map]
  constructor
  · rintro ⟨q, hq, rfl⟩
    obtain ⟨b, hbm, hrest⟩ := (hd.beneath_iff q).1 (List.mem_filter.1 hq)
    obtain ⟨y, hy, rfl⟩ := (paths_eq h b (hv b hbm) q).1 hrest
    exact ⟨b, hbm, y, hy, (framed_parse h (hv b hbm) (hi b hbm) hy).2⟩
  · rintro ⟨b, hbm, y, hy, rfl⟩
    refine ⟨Posix.parse y.path, ?_, (framed_parse h (hv b hbm) (hi b hbm) hy).2⟩
    apply List.mem_filter.2
    exact (hd.beneath_iff _).2 ⟨b, hbm, (paths_eq h b (hv b hbm) _).2 ⟨y, hy, rfl⟩⟩

theorem disk_nodup {files : List Posix} (hn : files.Nodup) (hnorm : ∀ q ∈ files, Posix.parse q.str = q)
    (p : Posix) : (diskBlobsAt files p).Nodup := by
  unfold diskBlobsAt
  refine List.Nodup.map_on ?_ (hn.sublist List.filter_sublist)
  intro a ha b hb e
  rw [← hnorm a (List.mem_filter.1 ha).1, ← hnorm b (List.mem_filter.1 hb).1, e]

/-- Names in order: identifiers of equal length, increasing. -/
theorem path_lt {base frame i j e : Str} (hl : i.length = j.length) (h : i < j) :
    Framed.path ⟨base, frame, i ++ e⟩ < Framed.path ⟨base, frame, j ++ e⟩ := by
  unfold Framed.path
  refine (append_lt_append rfl).2 (Or.inr ⟨rfl, ?_⟩)
  have : '/' :: (i ++ e) = ['/'] ++ (i ++ e) := rfl
  have h2 : '/' :: (j ++ e) = ['/'] ++ (j ++ e) := rfl
  simp only [this, h2]
  refine (append_lt_append rfl).2 (Or.inr ⟨rfl, ?_⟩)
  exact (append_lt_append hl).2 (Or.inl h)

/-- The name of a blob of a run. -/
def nameOf (w : Job) (ls : List (List Piece)) (now : DateTime) (i : Str) : Str :=
  Framed.path ⟨w.base ls, asAtName now, i ++ extension w.format⟩

theorem nameOf_lt {w : Job} {ls : List (List Piece)} {now : DateTime} {ids : List Str}
    (hord : ids.Pairwise (fun i j => i.length = j.length ∧ i < j)) :
    (ids.map (nameOf w ls now)).Pairwise (fun x y => x < y) := by
  rw [List.pairwise_map]
  exact hord.imp (fun hij => path_lt hij.1 hij.2)

theorem nodup_of_lt {l : List Str} (h : l.Pairwise (fun x y => x < y)) : l.Nodup := by
  refine h.imp ?_
  intro x y hxy e
  rw [e] at hxy
  exact List.lt_irrefl _ hxy

theorem sorted_of_lt {l : List Str} (h : l.Pairwise (fun x y => x < y)) : sorted strLe l = l := by
  apply sorted_of_pairwise
  exact h.imp (fun hxy => by simp only [strLe, decide_eq_true_eq]; exact List.le_of_lt hxy)

/-- The blobs listed for a day when the newest finished run is `b`. -/
theorem day_names (w : Job) (ls : List (List Piece)) (h : w.OK ls) (hb : PlainBase (w.base ls))
    (b : Batch) (hord : b.ids.Pairwise (fun i j => i.length = j.length ∧ i < j))
    (hs : List Batch) (hbm : b ∈ hs) (hlatest : ∀ t, Latest hs t ↔ t = b.now)
    (huniq : ∀ b' ∈ hs, b'.now = b.now → b' = b)
    (hv : ∀ e ∈ hs, e.now.valid = true) (hi : ∀ e ∈ hs, ∀ i ∈ e.ids, HexId i)
    (files : List Posix) (hfn : files.Nodup) (hd : Holds w hs files ⟨[], ls.map (filled w.date)⟩) :
    ∃ cl, cycleBlobs none (diskBlobsAt files ⟨[], ls.map (filled w.date)⟩) = .ok cl ∧
      cl.Perm (b.ids.map (nameOf w ls b.now)) := by
  have hbv := hv b hbm
  have hnm : ∀ i, batchBlob w.dataset w.partitions (asAtName b.now) w.date w.rnd w.format i
      = .ok (nameOf w ls b.now i) := fun i => batchBlob_eq h hbv i
  obtain ⟨cl, hcl, hclx⟩ := cycle_history h hb hv hi hd
  have hmem : ∀ x, x ∈ cl ↔ x ∈ b.ids.map (nameOf w ls b.now) := by
    intro x
    rw [hclx, List.mem_map]
    constructor
    · rintro ⟨t, ht, b', hb', h1, i, hi', hx⟩
      rw [(hlatest t).1 ht] at h1
      obtain rfl := huniq b' hb' h1
      rw [hnm] at hx
      exact ⟨i, hi', Except.ok.inj hx⟩
    · rintro ⟨i, hi', rfl⟩
      exact ⟨b.now, (hlatest _).2 rfl, b, hbm, rfl, i, hi', hnm i⟩
  have hclNodup : cl.Nodup := by
    have hby : ∀ x ∈ diskBlobsAt files ⟨[], ls.map (filled w.date)⟩, contains "/by_".toList x = false := by
      intro x hx
      obtain ⟨e, he, y, hy, rfl⟩ := (disk_mem h hv hi hd x).1 hx
      exact (framed_path_plain hb (hv e he) (hi e he) hy).1
    rw [cycleBlobs_plain hby hcl]
    exact ((segmentBlobs_sublist_nil _).trans List.filter_sublist).nodup
      (disk_nodup hfn (fun q hq => hd.normal q hq) _)
  exact ⟨cl, hcl, (List.perm_ext_iff_of_nodup hclNodup (nodup_of_lt (nameOf_lt hord))).2 hmem⟩

/-- What the blobs of a run hold. -/
theorem day_rows (w : Job) (ls : List (List Piece)) (h : w.OK ls) (hfmt : w.format ≠ "text".toList)
    (c : Writer.Config ρ) (hc : c.format = formatOf w.format) (lib : Lib ρ)
    (calls : List (Writer.Op ρ)) (hl : Faithful c.codec lib (Writer.Spec.accepted (Writer.outcomes c {} calls)))
    (ht : ∀ r ∈ Writer.Spec.accepted (Writer.outcomes c {} calls), lib.truthy r = true)
    (b : Batch) (hids : b.ids.length = (writtenBlobs c calls).length) (hne : ∀ i ∈ b.ids, i ≠ [])
    (hbv : b.now.valid = true) (hbi : ∀ i ∈ b.ids, HexId i)
    (storage : Str → Except Err Bytes)
    (hst : ∀ p ∈ b.ids.zip (writtenBlobs c calls), ∀ x,
      batchBlob w.dataset w.partitions (asAtName b.now) w.date w.rnd w.format p.1 = .ok x → storage x = .ok p.2) :
    (b.ids.map (nameOf w ls b.now)).flatMap (fun x => readBlob lib {} x (storage x))
      = (Writer.Spec.accepted (Writer.outcomes c {} calls)).map .row ∧
    (Writer.Spec.accepted (Writer.outcomes c {} calls) ≠ [] → b.ids ≠ []) := by
  have hnm : ∀ i, batchBlob w.dataset w.partitions (asAtName b.now) w.date w.rnd w.format i
      = .ok (nameOf w ls b.now i) := fun i => batchBlob_eq h hbv i
  obtain ⟨⟨groups, hg1, hg2, hg3⟩, -⟩ := Writer.C01_conservation c calls false
  refine ⟨?_, ?_⟩
  · rw [List.flatMap_map]
    have hz : ∀ p ∈ b.ids.zip (writtenBlobs c calls), storage (nameOf w ls b.now p.1) = .ok p.2 :=
      fun p hp => hst p hp _ (hnm p.1)
    unfold writtenBlobs at hz hids
    rw [hg1] at hz hids
    rw [← hg2] at ht hl ⊢
    have hbn : ∀ i ∈ b.ids, BlobName w.format (nameOf w ls b.now i) := by
      intro i hib
      refine ⟨⟨w.base ls ++ '/' :: asAtName b.now, i, rfl, hne i hib, hex_not (hbi i hib) (by decide),
        hex_not (hbi i hib) (by decide), asAtName b.now, ?_, ?_, ?_⟩⟩
      · rw [split_last _ _ (asAtName_flat hbv)]; simp
      · rw [asAtName_eq]; simp
      · rw [asAtName_eq]; simp
    clear hg1 hg2 hg3 hst hne hbi
    generalize b.ids = ids at hz hids hbn
    induction groups generalizing ids with
    | nil =>
      have : ids = [] := by simpa using hids
      simp [this]
    | cons g groups ih =>
      cases ids with
      | nil => simp at hids
      | cons i ids =>
        have h1 : storage (nameOf w ls b.now i) = .ok (Writer.Spec.encode c.codec c.format g) :=
          hz (i, _) (by rw [List.map_cons, List.zip_cons_cons]; exact List.mem_cons_self)
        rw [List.flatMap_cons, List.flatten_cons, List.map_append,
          ih (hl.mono (by simp)) (fun r hr => ht r (by simp [hr])) ids (fun p hp => hz p (by simp [hp])) (by simpa using hids)
            (fun j hj => hbn j (by simp [hj])), h1, hc,
          C25_blob_round_trip c.codec lib w.format _ hfmt (hbn i (by simp)) g (hl.mono (by simp)),
          List.filter_eq_self.2 (fun r hr => ht r (by simp [hr]))]
  · intro hacc e
    rw [e] at hids
    have : groups = [] := by
      cases groups with
      | nil => rfl
      | cons g groups => simp [writtenBlobs, hg1] at hids
    rw [this] at hg2
    exact hacc hg2.symm

/-- Reading when the newest finished run is `b`. -/
theorem read_core
    (w : Job) (ls : List (List Piece)) (h : w.OK ls) (hb : PlainBase (w.base ls))
    (hfmt : w.format ≠ "text".toList) (rnd : Str)
    (hday : cyclePath (readerDataset w.dataset w.partitions) rnd (midnight w.date)
      = cyclePath (readerDataset w.dataset w.partitions) rnd w.date)
    (c : Writer.Config ρ) (hc : c.format = formatOf w.format) (lib : Lib ρ)
    (calls : List (Writer.Op ρ)) (hl : Faithful c.codec lib (Writer.Spec.accepted (Writer.outcomes c {} calls)))
    (ht : ∀ r ∈ Writer.Spec.accepted (Writer.outcomes c {} calls), lib.truthy r = true)
    (hacc : Writer.Spec.accepted (Writer.outcomes c {} calls) ≠ [])
    (b : Batch) (hids : b.ids.length = (writtenBlobs c calls).length) (hne : ∀ i ∈ b.ids, i ≠ [])
    (hord : b.ids.Pairwise (fun i j => i.length = j.length ∧ i < j))
    (hs : List Batch) (hbm : b ∈ hs) (hlatest : ∀ t, Latest hs t ↔ t = b.now)
    (huniq : ∀ b' ∈ hs, b'.now = b.now → b' = b)
    (hv : ∀ e ∈ hs, e.now.valid = true) (hi : ∀ e ∈ hs, ∀ i ∈ e.ids, HexId i)
    (files : List Posix) (hfn : files.Nodup)
    (hd : Holds w hs files (cyclePath (readerDataset w.dataset w.partitions) rnd w.date))
    (storage : Str → Except Err Bytes)
    (hst : ∀ p ∈ b.ids.zip (writtenBlobs c calls), ∀ x,
      batchBlob w.dataset w.partitions (asAtName b.now) w.date w.rnd w.format p.1 = .ok x → storage x = .ok p.2)
    (now : DateTime) (freshness : Str) (prefixes : List Str) (hallow : Reader.allowed prefixes w.dataset = true) (hash : Str → Nat) :
    ∃ l, Reader.openReader (dayReader w freshness prefixes) now rnd (diskBlobsAt files) = .ok (0, l) ∧
      l = b.ids.map (nameOf w ls b.now) ∧ l ≠ [] ∧
      delivered hash lib {} storage l = (Writer.Spec.accepted (Writer.outcomes c {} calls)).map .row := by
  have hp := cyclePath_eq h rnd
  rw [hp] at hd
  obtain ⟨cl, hcl, hperm⟩ := day_names w ls h hb b hord hs hbm hlatest huniq hv hi files hfn hd
  obtain ⟨hrows, hblobs⟩ := day_rows w ls h hfmt c hc lib calls hl ht b hids hne (hv b hbm) (hi b hbm) storage hst
  have hlt := nameOf_lt (w := w) (ls := ls) (now := b.now) hord
  have hlist : listBlobs (readerDataset w.dataset w.partitions) rnd none (diskBlobsAt files) [midnight w.date]
      = .ok (b.ids.map (nameOf w ls b.now)) := by
    rw [← sorted_of_lt hlt, ← sorted_eq_of_perm strLe_preorder hperm (fun a _ b _ => strLe_antisymm)]
    unfold listBlobs visited
    simp only [List.map_cons, List.map_nil, hday, hp, dedup, List.filter_nil, List.mapM_cons, List.mapM_nil, hcl]
    simp [pure, Except.pure, bind, Except.bind]
  have hblobs := hblobs hacc
  refine ⟨b.ids.map (nameOf w ls b.now), ?_, rfl, by simpa using hblobs, ?_⟩
  · -- opening
    have hlst := listing_day w freshness prefixes now rnd (diskBlobsAt files)
    rw [hlist] at hlst
    have hfl : Reader.freshnessLimit (dayReader w freshness prefixes) now = .ok (parseDelta freshness) := by
      unfold Reader.freshnessLimit
      have : readerDates now (dayReader w freshness prefixes).start (dayReader w freshness prefixes).stop
          = (midnight w.date, midnight w.date) := by
        show (if (midnight w.date).le (midnight w.date) then _ else _) = _
        rw [if_pos (by simp [DateTime.le])]
        rfl
      rw [this]
      simp [dayReader]
    have hread : (b.ids.map (nameOf w ls b.now)).filter isReadable = b.ids.map (nameOf w ls b.now) := by
      rw [List.filter_eq_self]
      intro x hx
      obtain ⟨i, -, rfl⟩ := List.mem_map.1 hx
      exact C22_blobs_readable _ _ _ _
    have hne' : b.ids.map (nameOf w ls b.now) ≠ [] := by simpa using hblobs
    unfold Reader.openReader
    have ha : Reader.allowed (dayReader w freshness prefixes).prefixes (dayReader w freshness prefixes).dataset
        = true := hallow
    rw [ha, hfl]
    simp only [Bool.not_true, Bool.false_eq_true, if_false]
    unfold chooseBlobs
    rw [hlst]
    by_cases hlim : parseDelta freshness > 1
    · have : lookBack (parseDelta freshness) (Reader.listing (dayReader w freshness prefixes) now rnd
          (diskBlobsAt files)) ((parseDelta freshness).toNat / 86400 + 2) 0 (.ok (b.ids.map (nameOf w ls b.now)))
          = .ok (0, b.ids.map (nameOf w ls b.now)) := by
        simp only [lookBack, hne', false_and, if_false]
      simp only [if_pos hlim, this]
      rw [if_neg (by simp; omega)]
      simp only [hread, if_neg hne']
    · simp only [if_neg hlim, hread, if_neg hne']
  · -- reading
    have hnames : Names (b.ids.map (nameOf w ls b.now)) := by
      refine ⟨nodup_of_lt hlt, ?_⟩
      intro hx
      obtain ⟨i, -, hi'⟩ := List.mem_map.1 hx
      simp [nameOf, Framed.path] at hi'
    rw [(delivered_eq hash lib {} storage _ hnames).1, sorted_of_lt hlt, hrows]

/-- **C72.**  A batch writer is given any records, in any calls, for a dataset and day, with working
storage, and finalized successfully.  Its blobs are stored under the names it gives them, beside whatever
earlier runs left on the disk.  Then a reader for that dataset and day delivers exactly the records the
writer accepted, each once, in the order they were appended. -/
theorem C72_written_is_read
    -- the dataset, the day and the format
    (w : Job) (ls : List (List Piece)) (h : w.OK ls) (hb : PlainBase (w.base ls))
    (hfmt : w.format ≠ "text".toList) (rnd : Str)
    (hday : cyclePath (readerDataset w.dataset w.partitions) rnd (midnight w.date)
      = cyclePath (readerDataset w.dataset w.partitions) rnd w.date)
    -- the writer and the libraries
    (c : Writer.Config ρ) (hc : c.format = formatOf w.format) (lib : Lib ρ)
    -- the calls: at least one record is accepted, none that is is empty (see C70), no failure is reported
    (calls : List (Writer.Op ρ)) (hl : Faithful c.codec lib (Writer.Spec.accepted (Writer.outcomes c {} calls)))
    (ht : ∀ r ∈ Writer.Spec.accepted (Writer.outcomes c {} calls), lib.truthy r = true)
    (hacc : Writer.Spec.accepted (Writer.outcomes c {} calls) ≠ [])
    (hnf : Writer.Op.finalize true ∉ calls)
    -- the run as it appears on disk: a name for each blob, and the completion marker if there is one
    (b : Batch) (hids : b.ids.length = (writtenBlobs c calls).length) (hne : ∀ i ∈ b.ids, i ≠ [])
    (hord : b.ids.Pairwise (fun i j => i.length = j.length ∧ i < j))
    (hcomp : Writer.Stored.complete ∈ (Writer.run c {} (calls ++ [.finalize false])).store → b.complete = true)
    (hign : b.ignored = false)
    -- earlier runs, finished or not
    (earlier : List Batch) (hbefore : ∀ e ∈ earlier, e.now.seconds < b.now.seconds)
    (hv : ∀ e ∈ b :: earlier, e.now.valid = true) (hi : ∀ e ∈ b :: earlier, ∀ i ∈ e.ids, HexId i)
    -- the disk
    (files : List Posix) (hfn : files.Nodup)
    (hd : Holds w (b :: earlier) files (cyclePath (readerDataset w.dataset w.partitions) rnd w.date))
    (storage : Str → Except Err Bytes)
    (hst : ∀ p ∈ b.ids.zip (writtenBlobs c calls), ∀ x,
      batchBlob w.dataset w.partitions (asAtName b.now) w.date w.rnd w.format p.1 = .ok x → storage x = .ok p.2)
    -- the reader
    (now : DateTime) (freshness : Str) (prefixes : List Str) (hallow : Reader.allowed prefixes w.dataset = true) (hash : Str → Nat) :
    ∃ l, Reader.openReader (dayReader w freshness prefixes) now rnd (diskBlobsAt files) = .ok (0, l) ∧
      delivered hash lib {} storage l = (Writer.Spec.accepted (Writer.outcomes c {} calls)).map .row := by
  -- the marker is there
  have hcomplete : b.complete = true := by
    apply hcomp
    obtain ⟨⟨k, h1, -, h3⟩, -⟩ := Writer.C06_marker_policy c calls false
    have : k = 1 := h3.2 ⟨rfl, hnf, Or.inl hacc⟩
    apply List.count_pos_iff.1
    omega
  -- the latest run is b
  have hlatest : ∀ t, Latest (b :: earlier) t ↔ t = b.now := by
    intro t
    have hnign : ¬ ∃ b' ∈ b :: earlier, b'.now = b.now ∧ b'.ignored = true := by
      rintro ⟨b', hb', h1, h2⟩
      rcases List.mem_cons.1 hb' with rfl | hb'
      · rw [hign] at h2; cases h2
      · have := hbefore b' hb'
        rw [h1] at this
        omega
    constructor
    · intro ht
      have h1 := ht.latest b (by simp) hcomplete hnign
      obtain ⟨x, hx, hxt, -⟩ := ht.complete
      rcases List.mem_cons.1 hx with rfl | hx
      · exact hxt.symm
      · have := hbefore x hx
        rw [hxt] at this
        omega
    · rintro rfl
      refine ⟨⟨b, by simp, rfl, hcomplete⟩, hnign, ?_⟩
      intro x hx _ _
      rcases List.mem_cons.1 hx with rfl | hx
      · exact Nat.le_refl _
      · exact Nat.le_of_lt (hbefore x hx)
  obtain ⟨l, hl1, -, -, hl2⟩ := read_core w ls h hb hfmt rnd hday c hc lib calls hl ht hacc b hids hne hord
    (b :: earlier) (by simp) hlatest (by
      intro b' hb' e
      rcases List.mem_cons.1 hb' with rfl | hb'
      · rfl
      · have := hbefore b' hb'
        rw [e] at this
        omega) hv hi files hfn hd storage hst now freshness prefixes hallow hash
  exact ⟨l, hl1, hl2⟩

/-! ### A concrete run -/

/-- The demonstration job, stored as compressed JSON lines. -/
def zJob : Job := { demoJob with format := "zstd".toList }

theorem zJob_ok : zJob.OK demoFolders := ⟨demo_ok.folders, demo_ok.ne, demo_ok.path, demo_ok.dataset, demo_ok.date⟩

def zConfig : Writer.Config (Fin 10) :=
  { codec := Blobs.demoCodec, format := .zstd, maximumBlobSize := 2, valid := fun n => n ≠ 7, alwaysComplete := false }

def zCalls : List (Writer.Op (Fin 10)) := [.append 1, .append 2, .append 7, .append 3]

def zRun : Batch := ⟨⟨2024, 3, 1, 11, 30, 0⟩, ["ab-1-1".toList, "ac-1-1".toList], true, false⟩

def zEarlier : List Batch :=
  [⟨⟨2024, 3, 1, 10, 0, 0⟩, ["aa-1-1".toList], true, false⟩, ⟨⟨2024, 3, 1, 10, 5, 0⟩, ["aa-1-2".toList], false, false⟩]

def zStorage : Str → Except Err Bytes := fun x =>
  if x = "tests/data/year_2024/month_02/day_29/as_at_20240301-113000/ab-1-1.jsonl.zstd".toList
    then .ok [1, 49, 10, 50, 10]
  else if x = "tests/data/year_2024/month_02/day_29/as_at_20240301-113000/ac-1-1.jsonl.zstd".toList
    then .ok [1, 51, 10]
  else .error .dataNotFound

/-- Non-vacuity: four appends, of which one is refused, two blobs, two earlier runs, one of them not
completed.  Every hypothesis of `C72_written_is_read` holds. -/
example : ∃ files l,
    Reader.openReader (dayReader zJob "2d".toList ["tests/".toList]) ⟨2024, 5, 5, 0, 0, 0⟩ [] (diskBlobsAt files)
      = .ok (0, l) ∧
    delivered (fun _ => 0) demoLib' {} zStorage l = [.row 1, .row 2, .row 3] := by
  have hvi : (∀ e ∈ zRun :: zEarlier, e.now.valid = true) ∧ (∀ e ∈ zRun :: zEarlier, ∀ i ∈ e.ids, HexId i) := by
    constructor
    · decide
    · unfold HexId; decide
  obtain ⟨files, hd⟩ := holds_exists zJob demoFolders zJob_ok (zRun :: zEarlier) hvi.1 hvi.2 []
  have hd2 : Holds zJob (zRun :: zEarlier) (dedup files)
      (cyclePath (readerDataset zJob.dataset zJob.partitions) [] zJob.date) :=
    ⟨fun q hq => hd.normal q (dedup_mem.1 hq), fun q => by rw [dedup_mem]; exact hd.beneath_iff q⟩
  obtain ⟨l, h1, h2⟩ := C72_written_is_read zJob demoFolders zJob_ok demo_base (by decide) [] rfl
    zConfig rfl demoLib' zCalls (demo_faithful _) (fun _ _ => rfl) (by decide) (by unfold zCalls; simp) zRun (by decide)
    (by decide) (by decide +kernel) (fun _ => rfl) rfl zEarlier (by decide +kernel) hvi.1 hvi.2
    (dedup files) (dedup_nodup _) hd2 zStorage (by
      intro p hp x hx
      have hw : zRun.ids.zip (writtenBlobs zConfig zCalls)
          = [("ab-1-1".toList, [1, 49, 10, 50, 10]), ("ac-1-1".toList, [1, 51, 10])] := by decide +kernel
      rw [hw] at hp
      simp only [List.mem_cons, List.not_mem_nil, or_false] at hp
      rcases hp with rfl | rfl
      · have e : batchBlob zJob.dataset zJob.partitions (asAtName zRun.now) zJob.date zJob.rnd zJob.format
            "ab-1-1".toList
            = .ok "tests/data/year_2024/month_02/day_29/as_at_20240301-113000/ab-1-1.jsonl.zstd".toList := by
          decide +kernel
        rw [e] at hx
        cases hx
        rfl
      · have e : batchBlob zJob.dataset zJob.partitions (asAtName zRun.now) zJob.date zJob.rnd zJob.format
            "ac-1-1".toList
            = .ok "tests/data/year_2024/month_02/day_29/as_at_20240301-113000/ac-1-1.jsonl.zstd".toList := by
          decide +kernel
        rw [e] at hx
        cases hx
        decide +kernel)
    ⟨2024, 5, 5, 0, 0, 0⟩ "2d".toList ["tests/".toList] (by decide) (fun _ => 0)
  exact ⟨_, l, h1, h2⟩

end Mabel.EndToEnd
