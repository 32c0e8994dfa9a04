import Verif.Lemmas.CloudStream
import Verif.Props.FieldStorage
import Verif.Props.Cloud

/-!
# Stream writers on object storage, from the calls to what a reader of a range of days delivers: C112
-/

namespace Mabel.CloudStream
open Mabel.Py Mabel.Paths Mabel.Naming Mabel.Spec Mabel.Listing Mabel.ObjectStore Mabel.EndToEnd
open Mabel.Cloud (gcs minio gcsListed minioListed readerHours)
open Mabel.StreamStorage hiding put onDisk
open Mabel.History (Day Daily folderOf DaysOf rangeReader)
open Mabel.Blobs (Lib Faithful delivered Item Names formatOf)
open Mabel.WriterInit (Nested)
open Mabel.Stream (Conf Machine Reach Pool run)
open Mabel.Disk (Disk)
variable {ρ β : Type}

/-! ## The conditions -/

/-- There is room in the storage: no object in the folders of the days `S`, and identifiers for `n` blobs, one coming before
the other (they begin with the time).  The folders are in a bucket, and the name of the last has no dot. -/
structure Place (ls : List (List Piece)) (S : DateTime → Prop) (s : List (Obj Disk.Bytes)) (ids : List Str) (n : Nat) : Prop where
  tidy : ObjectStore.Tidy s
  empty : ∀ t, S t → ∀ q ∈ files s, beneath ⟨[], folderOf ls t⟩ q = false
  bucket : 2 ≤ ls.length
  dot : ∀ l ∈ ls.getLast?, ∀ t, Piece.lit t ∈ l → '.' ∉ t
  enough : n ≤ ids.length
  hex : ∀ i ∈ ids, HexId i ∧ i ≠ []
  order : ids.Pairwise Before

/-- The records can be written and read: the libraries give back what they were given, and no record is taken for nothing.
(Nothing is asked of blobs that are cut short: there are none.) -/
structure Kept (codec : Writer.Codec ρ) (lib : Lib ρ) (records : List ρ) : Prop where
  faithful : Faithful codec lib records
  truthy : ∀ r ∈ records, lib.truthy r = true

/-- Both services list the folders of the days. -/
structure Listed (c : Reader.Config) (now : DateTime) (rnd : Str) (ls : List (List Piece)) (days : List DateTime)
    (s : List (Obj Disk.Bytes)) : Prop where
  gcs : ∀ t ∈ days, gcsBlobsAt s ⟨[], folderOf ls t⟩ = .ok (gcsListed s ⟨[], folderOf ls t⟩)
  minio : ∀ t ∈ days, minioBlobsAt s rnd (readerHours c now) ⟨[], folderOf ls t⟩
    = .ok (minioListed c now rnd s ⟨[], folderOf ls t⟩)

/-- What a reader lists: of either service. -/
def Lister (c : Reader.Config) (now : DateTime) (rnd : Str) (s : List (Obj Disk.Bytes)) (blobsAt : Posix → List Str) : Prop :=
  blobsAt = gcsListed s ∨ blobsAt = minioListed c now rnd s

/-- From the disk to the storage. -/
theorem reads_objects {w : Job} {ls : List (List Piece)} (hw : Daily w ls) {S : DateTime → Prop}
    {first last : DateTime} {days : List DateTime} (hr : Range S first last days) {obj : List (Obj Disk.Bytes)} {ids : List Str}
    {n : Nat} (hp : Place ls S obj ids n) {s : List (Obj Disk.Bytes)} {d : Disk} (ha : Alike ls S s d)
    (now : DateTime) (rnd : Str) (prefixes : List Str) (flt : Option PartitionFilter) (hash : Str → Nat) (lib : Lib ρ) :
    Listed (rangeReader w first last prefixes flt) now rnd ls days s ∧
    ∀ blobsAt, Lister (rangeReader w first last prefixes flt) now rnd s blobsAt →
      (∀ e, Reader.openReader (rangeReader w first last prefixes flt) now rnd (diskBlobsAt d.names) = .error e →
        Reader.openReader (rangeReader w first last prefixes flt) now rnd blobsAt = .error e) ∧
      ∀ l, Reader.openReader (rangeReader w first last prefixes flt) now rnd (diskBlobsAt d.names) = .ok (0, l) → Names l →
        ∃ l', Reader.openReader (rangeReader w first last prefixes flt) now rnd blobsAt = .ok (0, l') ∧
          delivered hash lib {} (blobBytes s) l' = delivered hash lib {} (Disk.read d) l := by
  refine ⟨⟨fun t ht => (gcs_lists hw hp.bucket hp.dot hr.all ha.tidy ht).2,
    fun t ht => (minio_lists hw hp.bucket hp.dot hr.all now rnd ha.tidy _ ht).2⟩, ?_⟩
  intro blobsAt hb
  obtain ⟨h1, h2⟩ := alike_reads (ρ := ρ) hw hp.bucket hp.dot hr.start hr.stop hr.order hr.all now rnd prefixes flt hr.among ha hb
  refine ⟨h1, ?_⟩
  intro l hl hn
  obtain ⟨l', g1, g2⟩ := h2 0 l hl hn.nonempty
  exact ⟨l', g1, g2 hash lib⟩

/-- What is in the storage and is delivered after `j` blobs, at the later of two moments. -/
theorem cloud_timed {w : Job} {ls : List (List Piece)} {n : Nat} {flt : Option PartitionFilter} {subs chosen : List (List Str)}
    {es : List (List Piece)} (hw : Daily w ls) (hfmt : w.format ≠ "text".toList) (hy : Layout w ls n flt subs chosen)
    (hes : Timed es subs) (s : Setup) (hsf : s.format = w.format) (hs : s.template = join ['/'] ((ls ++ es).map template))
    (c : Conf ρ) (hc : c.blob.format = formatOf w.format) (valid : ρ → Bool) (str : β → Str)
    (field : ρ → Str → Targets.Field β) {S : DateTime → Prop} (calls : Nat → List (Call ρ β)) (clock : List Int)
    (obj : List (Obj Disk.Bytes)) (ids : List Str) {first last : DateTime} {days : List DateTime} (hr : Range S first last days)
    (records : List ρ) (lib : Lib ρ) (hread : Kept c.blob.codec lib records) (now : DateTime) (rnd : Str)
    (prefixes : List Str) (hallow : Reader.allowed prefixes w.dataset = true) (hash : Str → Nat)
    (ha : Asked s valid field S calls records) (m1 m2 : Machine ρ)
    (h1 : Reach c (atStart s valid str calls clock) m1) (hfree : m1.owner = none) (h2 : Reach c m1 m2)
    (hplace : Place ls S obj ids (handed m2.pool.store).length) :
    ∃ (hist1 hist2 : List (Nat × Call ρ β)) (left1 left2 : Nat → List (Call ρ β)),
      Served calls hist1 left1 ∧ Served left1 hist2 left2 ∧
      (∀ t, m1.todo t = (left1 t).map (op s valid str)) ∧ (∀ t, m2.todo t = (left2 t).map (op s valid str)) ∧
      m1.pool = run c { clock := clock } (hist1.map (fun x => op s valid str x.2)) ∧
      ∀ j, ∃ (s' : List (Obj Disk.Bytes)) (rows : DateTime → List Str → List ρ),
          inObjects gcs s ids obj m2.pool.store j = .ok s' ∧ inObjects minio s ids obj m2.pool.store j = .ok s' ∧
          Listed (rangeReader w first last prefixes flt) now rnd ls days s' ∧
          (∀ t ∈ days, ∀ sb ∈ chosen,
            rows t sb <+: appended s.date valid (fun u => midnight u = t ∧ folderOf es u = sb) (hist1 ++ hist2)) ∧
          (m1.pool.writers = [] → (handed m1.pool.store).length ≤ j → ∀ t ∈ days, ∀ sb ∈ chosen,
            appended s.date valid (fun u => midnight u = t ∧ folderOf es u = sb) hist1 <+: rows t sb) ∧
          ∀ blobsAt, Lister (rangeReader w first last prefixes flt) now rnd s' blobsAt →
            ((∀ t ∈ days, ∀ sb ∈ chosen,
                appended s.date valid (fun u => midnight u = t ∧ folderOf es u = sb) (hist1 ++ hist2) = []) →
              Reader.openReader (rangeReader w first last prefixes flt) now rnd blobsAt = .error .dataNotFound) ∧
            ((Reader.openReader (rangeReader w first last prefixes flt) now rnd blobsAt = .error .dataNotFound ∧
                ∀ t ∈ days, ∀ sb ∈ chosen, rows t sb = []) ∨
              ∃ l, Reader.openReader (rangeReader w first last prefixes flt) now rnd blobsAt = .ok (0, l) ∧
                delivered hash lib {} (blobBytes s') l = (days.flatMap fun t => chosen.flatMap (rows t)).map .row) := by
  obtain ⟨hist1, hist2, left1, left2, s1, s2, t1, t2, -, hrun, hgo, hk⟩ := stream_timed hw hfmt hy hes
    s hsf hs c hc valid str field ha.day calls ha.ok clock m1 m2 h1 hfree h2
    ⟨[], [], fun _ => []⟩ (fun t _ => ⟨nofun, List.nodup_nil, nofun, nofun⟩) List.nodup_nil
    ids hplace.enough hplace.hex hplace.order hr.start hr.stop hr.order hr.all hr.among records
    ha.records lib hread.faithful hread.truthy now rnd prefixes hallow hash
  refine ⟨hist1, hist2, left1, left2, s1, s2, t1, t2, hrun, ?_⟩
  intro j
  obtain ⟨k, s', b1, b2, b3, b4⟩ := bridge hy ha.day s hsf m2.pool.store hgo ids hplace.hex
    hplace.order obj hplace.tidy hplace.empty j
  obtain ⟨d', rows, g1, g2, g3, g4, g5⟩ := hk k (Or.inr b1)
  obtain ⟨c1, c2⟩ := reads_objects hw hr hplace (b4 d' g1) now rnd prefixes flt hash lib
  refine ⟨s', rows, b3 _ (Or.inl rfl), b3 _ (Or.inr rfl), c1, g2,
    fun he hj => g3 he (b2 _ (reach_grows h2) hj), ?_⟩
  intro blobsAt hb
  obtain ⟨c3, c4⟩ := c2 blobsAt hb
  refine ⟨fun hnone => c3 _ (g4 hnone), ?_⟩
  rcases g5 with ⟨g5, g6⟩ | ⟨l, g5, g6, g7⟩
  · exact Or.inl ⟨c3 _ g5, g6⟩
  · obtain ⟨l', e1, e2⟩ := c4 l g5 g6
    exact Or.inr ⟨l', e1, by rw [e2, g7]⟩

theorem nothing_since {s : Setup} {valid : ρ → Bool} {str : β → Str} {m : Machine ρ} {hist : List (Nat × Call ρ β)}
    {left1 left2 : Nat → List (Call ρ β)} (h : Served left1 hist left2)
    (t1 : ∀ t, m.todo t = (left1 t).map (op s valid str)) (t2 : ∀ t, m.todo t = (left2 t).map (op s valid str)) : hist = [] :=
  h.none (fun t => by
    have := congrArg List.length ((t1 t).symm.trans (t2 t))
    simpa using this)

theorem flatMap_nil {α γ : Type} {l : List α} {f g : α → List γ} (h : ∀ x ∈ l, f x = g x) (hf : ∀ x ∈ l, f x = []) :
    l.flatMap g = [] := by
  rw [List.flatMap_eq_nil_iff]
  intro x hx
  rw [← h x hx]
  exact hf x hx

/-! ## C112, a folder for each day -/

section
variable {w : Job} {ls : List (List Piece)} (hw : Daily w ls) (hn : Nested ls) (hfmt : w.format ≠ "text".toList)
  (date : Option DateTime) (c : Conf ρ) (hc : c.blob.format = formatOf w.format) (valid : ρ → Bool) (str : β → Str)
  (field : ρ → Str → Targets.Field β) {S : DateTime → Prop} (calls : Nat → List (Call ρ β)) (clock : List Int)
  (s : List (Obj Disk.Bytes)) (ids : List Str) {first last : DateTime} {days : List DateTime} (hr : Range S first last days)
  (records : List ρ) (lib : Lib ρ) (hread : Kept c.blob.codec lib records) (now : DateTime) (rnd : Str)
  (prefixes : List Str) (hallow : Reader.allowed prefixes w.dataset = true) (hash : Str → Nat)
include hw hn hfmt hc hr hread hallow

/-- **C112 (finalized is kept).**  Threads call a stream writer on Google Cloud Storage or MinIO; at one moment no call is under
way and no writer is open, as after `finalize`.  At any later moment, with any calls under way and any number `j` of blobs
stored, those handed over by then among them, even if no more is ever stored, a reader of a range of days delivers, day by day,
the records appended before, in the order of the appends, and then the first so many of those appended since; records that do
not pass the validation are not among them.  It finds no data only if there is none of this.  Nothing is asked of the libraries
about blobs that are cut short.

Partial: datasets whose folders are not in a bucket, or whose last folder has a dot in its name, are missing (see
`C79_listing_partial`). -/
theorem C112_finalized_stays_partial (ha : Asked (dayWriter w date) valid field S calls records) (m1 m2 : Machine ρ)
    (h1 : Reach c (atStart (dayWriter w date) valid str calls clock) m1) (hfree : m1.owner = none)
    (hempty : m1.pool.writers = []) (h2 : Reach c m1 m2)
    (hplace : Place ls S s ids (handed m2.pool.store).length) :
    ∃ (hist1 hist2 : List (Nat × Call ρ β)) (left1 left2 : Nat → List (Call ρ β)),
      Served calls hist1 left1 ∧ Served left1 hist2 left2 ∧
      (∀ t, m2.todo t = (left2 t).map (op (dayWriter w date) valid str)) ∧
      m1.pool = run c { clock := clock } (hist1.map (fun x => op (dayWriter w date) valid str x.2)) ∧
      ∀ j, (handed m1.pool.store).length ≤ j →
        ∃ (s' : List (Obj Disk.Bytes)) (rows : DateTime → List ρ),
          inObjects gcs (dayWriter w date) ids s m2.pool.store j = .ok s' ∧
          inObjects minio (dayWriter w date) ids s m2.pool.store j = .ok s' ∧
          Listed (rangeReader w first last prefixes) now rnd ls days s' ∧
          (∀ t ∈ days, appended date valid (fun u => midnight u = t) hist1 <+: rows t ∧
            rows t <+: appended date valid (fun u => midnight u = t) (hist1 ++ hist2)) ∧
          ∀ blobsAt, Lister (rangeReader w first last prefixes) now rnd s' blobsAt →
            (Reader.openReader (rangeReader w first last prefixes) now rnd blobsAt = .error .dataNotFound ∧
              ∀ t ∈ days, rows t = []) ∨
            ∃ l, Reader.openReader (rangeReader w first last prefixes) now rnd blobsAt = .ok (0, l) ∧
              delivered hash lib {} (blobBytes s') l = (days.flatMap rows).map .row := by
  obtain ⟨hist1, hist2, left1, left2, s1, s2, t1, t2, hrun, hj⟩ := cloud_timed hw hfmt (layout_plain hw hn) timed_plain
    (dayWriter w date) rfl (day_template hw date hr.start) c hc valid str field calls clock s ids hr records lib hread now rnd
    prefixes hallow hash ha m1 m2 h1 hfree h2 hplace
  refine ⟨hist1, hist2, left1, left2, s1, s2, t2, hrun, ?_⟩
  intro j hle
  obtain ⟨s', rows, b1, b2, b3, g1, g2, g3⟩ := hj j
  refine ⟨s', fun t => rows t [], b1, b2, b3, ?_, ?_⟩
  · intro t ht
    constructor
    · have := g2 hempty hle t ht [] (by simp)
      rw [plain_congr] at this
      exact this
    · have := g1 t ht [] (by simp)
      rw [plain_congr] at this
      exact this
  · intro blobsAt hb
    rcases (g3 blobsAt hb).2 with ⟨g5, g6⟩ | ⟨l, g5, g6⟩
    · exact Or.inl ⟨g5, fun t ht => g6 t ht [] (by simp)⟩
    · exact Or.inr ⟨l, g5, by rw [g6]; simp⟩

/-- **C112 (streamed is read).**  Threads call a stream writer on Google Cloud Storage or MinIO and, at a moment when no call is
under way and no writer is open, as after `finalize`, all blobs are stored.  A reader of a range of days then delivers, day by
day, exactly the valid records appended on that day (or for it, if the writer has a date), in the order in which the appends
obtained the writer; it finds no data if there are none.

Partial: datasets whose folders are not in a bucket, or whose last folder has a dot in its name, are missing (see
`C79_listing_partial`). -/
theorem C112_streamed_is_read_partial (ha : Asked (dayWriter w date) valid field S calls records) (m : Machine ρ)
    (h : Reach c (atStart (dayWriter w date) valid str calls clock) m) (hfree : m.owner = none)
    (hempty : m.pool.writers = []) (hplace : Place ls S s ids (handed m.pool.store).length) :
    ∃ (hist : List (Nat × Call ρ β)) (left : Nat → List (Call ρ β)), Served calls hist left ∧
      (∀ t, m.todo t = (left t).map (op (dayWriter w date) valid str)) ∧
      m.pool = run c { clock := clock } (hist.map (fun x => op (dayWriter w date) valid str x.2)) ∧
      ∀ j, (handed m.pool.store).length ≤ j →
        ∃ s', inObjects gcs (dayWriter w date) ids s m.pool.store j = .ok s' ∧
          inObjects minio (dayWriter w date) ids s m.pool.store j = .ok s' ∧
          Listed (rangeReader w first last prefixes) now rnd ls days s' ∧
          ∀ blobsAt, Lister (rangeReader w first last prefixes) now rnd s' blobsAt →
          let rows := days.flatMap fun t => appended date valid (fun u => midnight u = t) hist
          (rows = [] → Reader.openReader (rangeReader w first last prefixes) now rnd blobsAt = .error .dataNotFound) ∧
          (rows ≠ [] → ∃ l,
            Reader.openReader (rangeReader w first last prefixes) now rnd blobsAt = .ok (0, l) ∧
            delivered hash lib {} (blobBytes s') l = rows.map .row) := by
  obtain ⟨hist1, hist2, left1, left2, s1, s2, t1, t2, hrun, hj⟩ := cloud_timed hw hfmt (layout_plain hw hn) timed_plain
    (dayWriter w date) rfl (day_template hw date hr.start) c hc valid str field calls clock s ids hr records lib hread now rnd
    prefixes hallow hash ha m m h hfree (.refl m) hplace
  have h2 : hist2 = [] := nothing_since s2 t1 t2
  subst h2
  refine ⟨hist1, left1, s1, t1, hrun, ?_⟩
  intro j hle
  obtain ⟨s', rows, b1, b2, b3, g1, g2, g3⟩ := hj j
  have hrows : ∀ t ∈ days, rows t [] = appended date valid (fun u => midnight u = t) hist1 := by
    intro t ht
    have a1 := g1 t ht [] (by simp)
    have a2 := g2 hempty hle t ht [] (by simp)
    rw [List.append_nil, plain_congr] at a1
    rw [plain_congr] at a2
    exact a1.eq_of_length (Nat.le_antisymm a1.length_le a2.length_le)
  refine ⟨s', b1, b2, b3, ?_⟩
  intro blobsAt hb
  obtain ⟨g4, g5⟩ := g3 blobsAt hb
  refine ⟨?_, ?_⟩
  · intro hnone
    refine g4 ?_
    intro t ht sb hsb
    rw [List.mem_singleton.1 hsb, List.append_nil, plain_congr]
    exact List.flatMap_eq_nil_iff.1 hnone t ht
  · intro hsome
    rcases g5 with ⟨-, g6⟩ | ⟨l, g5, g6⟩
    · exact absurd (flatMap_nil hrows (fun t ht => g6 t ht [] (by simp))) hsome
    · refine ⟨l, g5, ?_⟩
      rw [g6, ← List.flatMap_congr hrows]
      simp

/-- **C112 (at any moment).**  At any moment, with any calls under way and any number of blobs stored, even if no more is ever
stored, a reader of a range of days delivers, day by day, the first so many of the valid records appended on that day, in the
order in which the appends obtained the writer, or finds no data.

Partial: datasets whose folders are not in a bucket, or whose last folder has a dot in its name, are missing (see
`C79_listing_partial`). -/
theorem C112_at_any_moment_partial (ha : Asked (dayWriter w date) valid field S calls records) (m : Machine ρ)
    (h : Reach c (atStart (dayWriter w date) valid str calls clock) m)
    (hplace : Place ls S s ids (handed m.pool.store).length) :
    ∃ (hist : List (Nat × Call ρ β)) (left : Nat → List (Call ρ β)), Served calls hist left ∧
      (∀ t, m.todo t = (left t).map (op (dayWriter w date) valid str)) ∧
      ∀ j, ∃ (s' : List (Obj Disk.Bytes)) (rows : DateTime → List ρ),
        inObjects gcs (dayWriter w date) ids s m.pool.store j = .ok s' ∧
        inObjects minio (dayWriter w date) ids s m.pool.store j = .ok s' ∧
        Listed (rangeReader w first last prefixes) now rnd ls days s' ∧
        (∀ t ∈ days, rows t <+: appended date valid (fun u => midnight u = t) hist) ∧
        ∀ blobsAt, Lister (rangeReader w first last prefixes) now rnd s' blobsAt →
          (Reader.openReader (rangeReader w first last prefixes) now rnd blobsAt = .error .dataNotFound ∧
            ∀ t ∈ days, rows t = []) ∨
          ∃ l, Reader.openReader (rangeReader w first last prefixes) now rnd blobsAt = .ok (0, l) ∧
            delivered hash lib {} (blobBytes s') l = (days.flatMap rows).map .row := by
  obtain ⟨hist1, hist2, left1, left2, s1, s2, t2, -, g⟩ := C112_finalized_stays_partial hw hn hfmt date c hc valid str field calls
    clock s ids hr records lib hread now rnd prefixes hallow hash ha _ m (.refl _) rfl rfl h hplace
  refine ⟨hist1 ++ hist2, left2, s1.append s2, t2, ?_⟩
  intro j
  obtain ⟨s', rows, b1, b2, b3, g1, g2⟩ := g j (Nat.zero_le _)
  exact ⟨s', rows, b1, b2, b3, fun t ht => (g1 t ht).2, g2⟩

end

/-! ## C112, folders for the hours of each day -/

section
variable {w : Job} {ls : List (List Piece)} (hw : Daily w ls) (hby : ∀ t, Day t → contains "by_".toList (join ['/'] (folderOf ls t)) = false)
  (hfmt : w.format ≠ "text".toList)
  (date : Option DateTime) (c : Conf ρ) (hc : c.blob.format = formatOf w.format) (valid : ρ → Bool) (str : β → Str)
  (field : ρ → Str → Targets.Field β) {S : DateTime → Prop} (calls : Nat → List (Call ρ β)) (clock : List Int)
  (s : List (Obj Disk.Bytes)) (ids : List Str) {first last : DateTime} {days : List DateTime} (hr : Range S first last days)
  (records : List ρ) (lib : Lib ρ) (hread : Kept c.blob.codec lib records) (now : DateTime) (rnd : Str)
  (prefixes : List Str) (hallow : Reader.allowed prefixes w.dataset = true) (hash : Str → Nat)
include hw hby hfmt hc hr hread hallow

/-- **C112 (by the hour, finalized is kept).**  As `C112_finalized_stays_partial`, of a writer that partitions each day by the
hour: what is delivered of a day is in the order of the hours and, within an hour, of the appends. -/
theorem C112_hours_stay_partial (ha : Asked (hourWriter w date) valid field S calls records) (m1 m2 : Machine ρ)
    (h1 : Reach c (atStart (hourWriter w date) valid str calls clock) m1) (hfree : m1.owner = none)
    (hempty : m1.pool.writers = []) (h2 : Reach c m1 m2)
    (hplace : Place ls S s ids (handed m2.pool.store).length) :
    ∃ (hist1 hist2 : List (Nat × Call ρ β)) (left1 left2 : Nat → List (Call ρ β)),
      Served calls hist1 left1 ∧ Served left1 hist2 left2 ∧
      (∀ t, m2.todo t = (left2 t).map (op (hourWriter w date) valid str)) ∧
      m1.pool = run c { clock := clock } (hist1.map (fun x => op (hourWriter w date) valid str x.2)) ∧
      ∀ j, (handed m1.pool.store).length ≤ j →
        ∃ (s' : List (Obj Disk.Bytes)) (rows : DateTime → Nat → List ρ),
          inObjects gcs (hourWriter w date) ids s m2.pool.store j = .ok s' ∧
          inObjects minio (hourWriter w date) ids s m2.pool.store j = .ok s' ∧
          Listed (rangeReader w first last prefixes) now rnd ls days s' ∧
          (∀ t ∈ days, ∀ h < 24, appended date valid (fun u => midnight u = t ∧ u.hour = h) hist1 <+: rows t h ∧
            rows t h <+: appended date valid (fun u => midnight u = t ∧ u.hour = h) (hist1 ++ hist2)) ∧
          ∀ blobsAt, Lister (rangeReader w first last prefixes) now rnd s' blobsAt →
            (Reader.openReader (rangeReader w first last prefixes) now rnd blobsAt = .error .dataNotFound ∧
              ∀ t ∈ days, ∀ h < 24, rows t h = []) ∨
            ∃ l, Reader.openReader (rangeReader w first last prefixes) now rnd blobsAt = .ok (0, l) ∧
              delivered hash lib {} (blobBytes s') l = (days.flatMap fun t => (List.range 24).flatMap (rows t)).map .row := by
  obtain ⟨hist1, hist2, left1, left2, s1, s2, t1, t2, hrun, hj⟩ := cloud_timed hw hfmt (layout_hour hw hby) timed_hour
    (hourWriter w date) rfl (hour_template hw date hr.start) c hc valid str field calls clock s ids hr records lib hread now rnd
    prefixes hallow hash ha m1 m2 h1 hfree h2 hplace
  refine ⟨hist1, hist2, left1, left2, s1, s2, t2, hrun, ?_⟩
  intro j hle
  obtain ⟨s', rows, b1, b2, b3, g1, g2, g3⟩ := hj j
  have hmem : ∀ h < 24, hourFolders h ∈ (List.range 24).map hourFolders :=
    fun h hh => List.mem_map.2 ⟨h, List.mem_range.2 hh, rfl⟩
  refine ⟨s', fun t h => rows t (hourFolders h), b1, b2, b3, ?_, ?_⟩
  · intro t ht h hh
    constructor
    · have := g2 hempty hle t ht _ (hmem h hh)
      rw [hour_congr ha s1 hh] at this
      exact this
    · have := g1 t ht _ (hmem h hh)
      rw [hour_congr ha (s1.append s2) hh] at this
      exact this
  · intro blobsAt hb
    rcases (g3 blobsAt hb).2 with ⟨g5, g6⟩ | ⟨l, g5, g6⟩
    · exact Or.inl ⟨g5, fun t ht h hh => g6 t ht _ (hmem h hh)⟩
    · refine Or.inr ⟨l, g5, ?_⟩
      rw [g6]
      simp only [List.flatMap_map]

/-- **C112 (by the hour, streamed is read).**  As `C112_streamed_is_read_partial`, of a writer that partitions each day by the
hour. -/
theorem C112_hours_are_read_partial (ha : Asked (hourWriter w date) valid field S calls records) (m : Machine ρ)
    (h : Reach c (atStart (hourWriter w date) valid str calls clock) m) (hfree : m.owner = none)
    (hempty : m.pool.writers = []) (hplace : Place ls S s ids (handed m.pool.store).length) :
    ∃ (hist : List (Nat × Call ρ β)) (left : Nat → List (Call ρ β)), Served calls hist left ∧
      (∀ t, m.todo t = (left t).map (op (hourWriter w date) valid str)) ∧
      m.pool = run c { clock := clock } (hist.map (fun x => op (hourWriter w date) valid str x.2)) ∧
      ∀ j, (handed m.pool.store).length ≤ j →
        ∃ s', inObjects gcs (hourWriter w date) ids s m.pool.store j = .ok s' ∧
          inObjects minio (hourWriter w date) ids s m.pool.store j = .ok s' ∧
          Listed (rangeReader w first last prefixes) now rnd ls days s' ∧
          ∀ blobsAt, Lister (rangeReader w first last prefixes) now rnd s' blobsAt →
          let rows := days.flatMap fun t => (List.range 24).flatMap fun h =>
            appended date valid (fun u => midnight u = t ∧ u.hour = h) hist
          (rows = [] → Reader.openReader (rangeReader w first last prefixes) now rnd blobsAt = .error .dataNotFound) ∧
          (rows ≠ [] → ∃ l,
            Reader.openReader (rangeReader w first last prefixes) now rnd blobsAt = .ok (0, l) ∧
            delivered hash lib {} (blobBytes s') l = rows.map .row) := by
  obtain ⟨hist1, hist2, left1, left2, s1, s2, t1, t2, hrun, hj⟩ := cloud_timed hw hfmt (layout_hour hw hby) timed_hour
    (hourWriter w date) rfl (hour_template hw date hr.start) c hc valid str field calls clock s ids hr records lib hread now rnd
    prefixes hallow hash ha m m h hfree (.refl m) hplace
  have h2 : hist2 = [] := nothing_since s2 t1 t2
  subst h2
  refine ⟨hist1, left1, s1, t1, hrun, ?_⟩
  intro j hle
  obtain ⟨s', rows, b1, b2, b3, g1, g2, g3⟩ := hj j
  have hmem : ∀ h < 24, hourFolders h ∈ (List.range 24).map hourFolders :=
    fun h hh => List.mem_map.2 ⟨h, List.mem_range.2 hh, rfl⟩
  have hrows : ∀ t ∈ days, ∀ h < 24,
      rows t (hourFolders h) = appended date valid (fun u => midnight u = t ∧ u.hour = h) hist1 := by
    intro t ht h hh
    have a1 := g1 t ht _ (hmem h hh)
    have a2 := g2 hempty hle t ht _ (hmem h hh)
    rw [List.append_nil, hour_congr ha s1 hh] at a1
    rw [hour_congr ha s1 hh] at a2
    exact a1.eq_of_length (Nat.le_antisymm a1.length_le a2.length_le)
  have he : ∀ t ∈ days, ((List.range 24).map hourFolders).flatMap (rows t)
      = (List.range 24).flatMap fun h => appended date valid (fun u => midnight u = t ∧ u.hour = h) hist1 := by
    intro t ht
    rw [List.flatMap_map]
    exact List.flatMap_congr (fun h hh => hrows t ht h (List.mem_range.1 hh))
  refine ⟨s', b1, b2, b3, ?_⟩
  intro blobsAt hb
  obtain ⟨g4, g5⟩ := g3 blobsAt hb
  refine ⟨?_, ?_⟩
  · intro hnone
    refine g4 ?_
    intro t ht sb hsb
    obtain ⟨h, hh, rfl⟩ := List.mem_map.1 hsb
    rw [List.append_nil, hour_congr ha s1 (List.mem_range.1 hh)]
    exact List.flatMap_eq_nil_iff.1 (List.flatMap_eq_nil_iff.1 hnone t ht) h hh
  · intro hsome
    rcases g5 with ⟨-, g6⟩ | ⟨l, g5, g6⟩
    · refine absurd (flatMap_nil he ?_) hsome
      intro t ht
      rw [List.flatMap_eq_nil_iff]
      exact g6 t ht
    · refine ⟨l, g5, ?_⟩
      rw [g6, List.flatMap_congr he]

end

/-! ## C112, folders for the values of a field -/

section
variable {w : Job} {ls : List (List Piece)} (hw : Daily w ls) (hby : ∀ t, Day t → contains "by_".toList (join ['/'] (folderOf ls t)) = false)
  (hfmt : w.format ≠ "text".toList)
  (date : Option DateTime) (c : Conf ρ) (hc : c.blob.format = formatOf w.format) (valid : ρ → Bool) (str : β → Str)
  (field : ρ → Str → Targets.Field β) {S : DateTime → Prop} (calls : Nat → List (Call ρ β)) (clock : List Int)
  (s : List (Obj Disk.Bytes)) (ids : List Str) {first last : DateTime} {days : List DateTime} (hr : Range S first last days)
  (records : List ρ) (lib : Lib ρ) (hread : Kept c.blob.codec lib records) (now : DateTime) (rnd : Str)
  (prefixes : List Str) (hallow : Reader.allowed prefixes w.dataset = true) (hash : Str → Nat)
  (F : Str) (flt : PartitionFilter) (hflt : Asks F flt) (hone : OneValue str field F flt.value records)
include hw hby hfmt hc hr hread hallow hflt hone

/-- What is in the storage and is delivered after `j` blobs, at the later of two moments. -/
theorem cloud_field (ha : Asked (fieldWriter w F date) valid field S calls records) (m1 m2 : Machine ρ)
    (h1 : Reach c (atStart (fieldWriter w F date) valid str calls clock) m1) (hfree : m1.owner = none) (h2 : Reach c m1 m2)
    (hplace : Place ls S s ids (handed m2.pool.store).length) :
    ∃ (hist1 hist2 : List (Nat × Call ρ β)) (left1 left2 : Nat → List (Call ρ β)),
      Served calls hist1 left1 ∧ Served left1 hist2 left2 ∧
      (∀ t, m1.todo t = (left1 t).map (op (fieldWriter w F date) valid str)) ∧
      (∀ t, m2.todo t = (left2 t).map (op (fieldWriter w F date) valid str)) ∧
      m1.pool = run c { clock := clock } (hist1.map (fun x => op (fieldWriter w F date) valid str x.2)) ∧
      ∀ j, ∃ (s' : List (Obj Disk.Bytes)) (rows : DateTime → List ρ),
        inObjects gcs (fieldWriter w F date) ids s m2.pool.store j = .ok s' ∧
        inObjects minio (fieldWriter w F date) ids s m2.pool.store j = .ok s' ∧
        Listed (rangeReader w first last prefixes (some flt)) now rnd ls days s' ∧
        (∀ t ∈ days, rows t <+: appended date (fun r => valid r && has str field F flt.value r) (fun u => midnight u = t)
          (hist1 ++ hist2)) ∧
        (m1.pool.writers = [] → (handed m1.pool.store).length ≤ j → ∀ t ∈ days,
          appended date (fun r => valid r && has str field F flt.value r) (fun u => midnight u = t) hist1 <+: rows t) ∧
        ∀ blobsAt, Lister (rangeReader w first last prefixes (some flt)) now rnd s' blobsAt →
          ((∀ t ∈ days, appended date (fun r => valid r && has str field F flt.value r) (fun u => midnight u = t)
              (hist1 ++ hist2) = []) →
            Reader.openReader (rangeReader w first last prefixes (some flt)) now rnd blobsAt = .error .dataNotFound) ∧
          ((Reader.openReader (rangeReader w first last prefixes (some flt)) now rnd blobsAt = .error .dataNotFound ∧
              ∀ t ∈ days, rows t = []) ∨
            ∃ l, Reader.openReader (rangeReader w first last prefixes (some flt)) now rnd blobsAt = .ok (0, l) ∧
              delivered hash lib {} (blobBytes s') l = (days.flatMap rows).map .row) := by
  have hy := layout_field hw hby hflt.name
    (field_values_safe (str := str) (field := field) (F := F) (x := flt.value) (records := records))
    flt hflt.field hflt.op (by simp [fieldValues]) hflt.value
  obtain ⟨hist1, hist2, left1, left2, s1, s2, t1, t2, hrun, hgo, hk⟩ := stream_field hw hby hfmt date c hc valid str field calls
    clock ⟨[], [], fun _ => []⟩ ids hr records lib now rnd prefixes hallow hash F flt hflt hone hread.faithful hread.truthy ha
    m1 m2 h1 hfree h2 ⟨fun t _ => ⟨nofun, List.nodup_nil, nofun, nofun⟩, List.nodup_nil, hplace.enough, hplace.hex, hplace.order⟩
  refine ⟨hist1, hist2, left1, left2, s1, s2, t1, t2, hrun, ?_⟩
  intro j
  obtain ⟨k, s', b1, b2, b3, b4⟩ := bridge hy ha.day (fieldWriter w F date) rfl m2.pool.store hgo ids hplace.hex
    hplace.order s hplace.tidy hplace.empty j
  obtain ⟨d', rows, g1, g2, g3, g4, g5⟩ := hk k (Or.inr b1)
  obtain ⟨c1, c2⟩ := reads_objects hw hr hplace (b4 d' g1) now rnd prefixes (some flt) hash lib
  refine ⟨s', rows, b3 _ (Or.inl rfl), b3 _ (Or.inr rfl), c1, g2,
    fun he hj => g3 he (b2 _ (reach_grows h2) hj), ?_⟩
  intro blobsAt hb
  obtain ⟨c3, c4⟩ := c2 blobsAt hb
  refine ⟨fun hnone => c3 _ (g4 hnone), ?_⟩
  rcases g5 with ⟨g5, g6⟩ | ⟨l, g5, g6, g7⟩
  · exact Or.inl ⟨c3 _ g5, g6⟩
  · obtain ⟨l', e1, e2⟩ := c4 l g5 g6
    exact Or.inr ⟨l', e1, by rw [e2, g7]⟩

/-- **C112 (by a field, finalized is kept).**  As `C112_finalized_stays_partial`, of a writer that partitions by a field and a
reader with a filter for a value of the field: of the valid records with this value.  Partial as `C90_filter_reads_value_partial`
as well. -/
theorem C112_values_stay_partial (ha : Asked (fieldWriter w F date) valid field S calls records) (m1 m2 : Machine ρ)
    (h1 : Reach c (atStart (fieldWriter w F date) valid str calls clock) m1) (hfree : m1.owner = none)
    (hempty : m1.pool.writers = []) (h2 : Reach c m1 m2)
    (hplace : Place ls S s ids (handed m2.pool.store).length) :
    ∃ (hist1 hist2 : List (Nat × Call ρ β)) (left1 left2 : Nat → List (Call ρ β)),
      Served calls hist1 left1 ∧ Served left1 hist2 left2 ∧
      (∀ t, m2.todo t = (left2 t).map (op (fieldWriter w F date) valid str)) ∧
      m1.pool = run c { clock := clock } (hist1.map (fun x => op (fieldWriter w F date) valid str x.2)) ∧
      ∀ j, (handed m1.pool.store).length ≤ j →
        ∃ (s' : List (Obj Disk.Bytes)) (rows : DateTime → List ρ),
          inObjects gcs (fieldWriter w F date) ids s m2.pool.store j = .ok s' ∧
          inObjects minio (fieldWriter w F date) ids s m2.pool.store j = .ok s' ∧
          Listed (rangeReader w first last prefixes (some flt)) now rnd ls days s' ∧
          (∀ t ∈ days,
            appended date (fun r => valid r && has str field F flt.value r) (fun u => midnight u = t) hist1 <+: rows t ∧
            rows t <+: appended date (fun r => valid r && has str field F flt.value r) (fun u => midnight u = t)
              (hist1 ++ hist2)) ∧
          ∀ blobsAt, Lister (rangeReader w first last prefixes (some flt)) now rnd s' blobsAt →
            (Reader.openReader (rangeReader w first last prefixes (some flt)) now rnd blobsAt = .error .dataNotFound ∧
              ∀ t ∈ days, rows t = []) ∨
            ∃ l, Reader.openReader (rangeReader w first last prefixes (some flt)) now rnd blobsAt = .ok (0, l) ∧
              delivered hash lib {} (blobBytes s') l = (days.flatMap rows).map .row := by
  obtain ⟨hist1, hist2, left1, left2, s1, s2, t1, t2, hrun, hj⟩ := cloud_field hw hby hfmt date c hc valid str field calls clock
    s ids hr records lib hread now rnd prefixes hallow hash F flt hflt hone ha m1 m2 h1 hfree h2 hplace
  refine ⟨hist1, hist2, left1, left2, s1, s2, t2, hrun, ?_⟩
  intro j hle
  obtain ⟨s', rows, b1, b2, b3, g1, g2, g3⟩ := hj j
  exact ⟨s', rows, b1, b2, b3, fun t ht => ⟨g2 hempty hle t ht, g1 t ht⟩, fun blobsAt hb => (g3 blobsAt hb).2⟩

/-- **C112 (by a field, a filter reads the records with the value).**  As `C112_streamed_is_read_partial`, of a writer that
partitions by a field and a reader with a filter for a value of the field: exactly the valid records with this value.  Partial
as `C90_filter_reads_value_partial` as well. -/
theorem C112_filter_reads_value_partial (ha : Asked (fieldWriter w F date) valid field S calls records) (m : Machine ρ)
    (h : Reach c (atStart (fieldWriter w F date) valid str calls clock) m) (hfree : m.owner = none)
    (hempty : m.pool.writers = []) (hplace : Place ls S s ids (handed m.pool.store).length) :
    ∃ (hist : List (Nat × Call ρ β)) (left : Nat → List (Call ρ β)), Served calls hist left ∧
      (∀ t, m.todo t = (left t).map (op (fieldWriter w F date) valid str)) ∧
      m.pool = run c { clock := clock } (hist.map (fun x => op (fieldWriter w F date) valid str x.2)) ∧
      ∀ j, (handed m.pool.store).length ≤ j →
        ∃ s', inObjects gcs (fieldWriter w F date) ids s m.pool.store j = .ok s' ∧
          inObjects minio (fieldWriter w F date) ids s m.pool.store j = .ok s' ∧
          Listed (rangeReader w first last prefixes (some flt)) now rnd ls days s' ∧
          ∀ blobsAt, Lister (rangeReader w first last prefixes (some flt)) now rnd s' blobsAt →
          let rows := days.flatMap fun t =>
            appended date (fun r => valid r && has str field F flt.value r) (fun u => midnight u = t) hist
          (rows = [] →
            Reader.openReader (rangeReader w first last prefixes (some flt)) now rnd blobsAt = .error .dataNotFound) ∧
          (rows ≠ [] → ∃ l,
            Reader.openReader (rangeReader w first last prefixes (some flt)) now rnd blobsAt = .ok (0, l) ∧
            delivered hash lib {} (blobBytes s') l = rows.map .row) := by
  obtain ⟨hist1, hist2, left1, left2, s1, s2, t1, t2, hrun, hj⟩ := cloud_field hw hby hfmt date c hc valid str field calls clock
    s ids hr records lib hread now rnd prefixes hallow hash F flt hflt hone ha m m h hfree (.refl m) hplace
  have h2 : hist2 = [] := nothing_since s2 t1 t2
  subst h2
  refine ⟨hist1, left1, s1, t1, hrun, ?_⟩
  intro j hle
  obtain ⟨s', rows, b1, b2, b3, g1, g2, g3⟩ := hj j
  have hrows : ∀ t ∈ days, rows t
      = appended date (fun r => valid r && has str field F flt.value r) (fun u => midnight u = t) hist1 := by
    intro t ht
    have a1 := g1 t ht
    have a2 := g2 hempty hle t ht
    rw [List.append_nil] at a1
    exact a1.eq_of_length (Nat.le_antisymm a1.length_le a2.length_le)
  refine ⟨s', b1, b2, b3, ?_⟩
  intro blobsAt hb
  obtain ⟨g4, g5⟩ := g3 blobsAt hb
  refine ⟨?_, ?_⟩
  · intro hnone
    refine g4 ?_
    intro t ht
    rw [List.append_nil]
    exact List.flatMap_eq_nil_iff.1 hnone t ht
  · intro hsome
    rcases g5 with ⟨-, g6⟩ | ⟨l, g5, g6⟩
    · exact absurd (flatMap_nil hrows g6) hsome
    · refine ⟨l, g5, ?_⟩
      rw [g6, List.flatMap_congr hrows]

end

/-! ## One inner writer for all the blobs of a target -/

/-- The blobs of a target stored by one inner writer, as it is after each. -/
def storeOn (v : Cloud.Service) : Inner → List (Obj Disk.Bytes) → List (Str × Disk.Bytes) → List (Obj Disk.Bytes)
  | _, s, [] => s
  | w, s, (i, bytes) :: rest => storeOn v (v.commit w s bytes none i).1 (v.commit w s bytes none i).2 rest

/-- **C112 (one writer or many).**  The blobs of a target are stored under the same names, with the same contents, whether one
inner writer stores them all, as in the code, or a new one is made for each, as in `inObjects`. -/
theorem C112_writer_again (v : Cloud.Service) (hv : v = gcs ∨ v = minio) (target format : Str) (inner : Inner)
    (hm : v.make target format = .ok inner) (s : List (Obj Disk.Bytes)) (blobs : List (Str × Disk.Bytes)) :
    storeEach v format s (blobs.map fun b => (b.1, target, b.2)) = .ok (storeOn v inner s blobs) := by
  rcases hv with rfl | rfl
  · have key : ∀ (w : Inner) (s : List (Obj Disk.Bytes)), w.bucket = inner.bucket → w.withoutBucket = inner.withoutBucket →
        storeEach gcs format s (blobs.map fun b => (b.1, target, b.2)) = .ok (storeOn gcs w s blobs) := by
      induction blobs with
      | nil => intro w s _ _; rfl
      | cons b bs ih =>
        intro w s h1 h2
        have e : (gcs.commit w s b.2 none b.1).2 = (gcs.commit inner s b.2 none b.1).2 := by
          simp only [gcs, gcsCommit, Inner.chooseName, Inner.buildPath, h1, h2]
        rw [List.map_cons, storeEach, hm]
        simp only
        rw [ih (gcs.commit w s b.2 none b.1).1 _ h1 h2, ← e]
        rfl
    exact key inner s rfl rfl
  · induction blobs generalizing s with
    | nil => rfl
    | cons b bs ih =>
      rw [List.map_cons, storeEach, hm]
      simp only
      rw [ih]
      rfl

/-! ## A concrete case -/

theorem demo_place (n : Nat) (hn : n ≤ 6) : Place demoFolders demoS Cloud.demoObjs demoBlobIds n where
  tidy := Cloud.demoObjs_tidy
  empty := by
    intro t ht
    have key : ∀ t ∈ [History.feb28, History.feb29, History.mar1], ∀ q ∈ files Cloud.demoObjs, beneath ⟨[], folderOf demoFolders t⟩ q = false := by
      decide +kernel
    exact key t ht
  bucket := by decide
  dot := Cloud.demo_dot
  enough := hn
  hex := by unfold HexId; decide
  order := by decide

/-- Non-vacuity: two threads and the attendant take turns until the writer is finalized; there is room for what is stored. -/
theorem demo_finalized : ∃ m, Reach demoConf (atStart (dayWriter zJob none) demoValid (fun _ => []) demoCalls [0, 1, 2, 3, 4]) m ∧
    m.owner = none ∧ m.pool.writers = [] ∧ (handed m.pool.store).length = 4 ∧
    Place demoFolders demoS Cloud.demoObjs demoBlobIds (handed m.pool.store).length := by
  obtain ⟨m, h1, h2⟩ := demo_after (s := dayWriter zJob none)
    (turns := List.replicate 4 0 ++ List.replicate 8 1 ++ List.replicate 6 2 ++ List.replicate 15 0)
    (P := fun m => m.owner.isNone && m.pool.writers.isEmpty && (handed m.pool.store).length == 4) (by decide +kernel)
  simp only [Bool.and_eq_true, Option.isNone_iff_eq_none, List.isEmpty_iff, beq_iff_eq] at h2
  exact ⟨m, h1, h2.1.1, h2.1.2, h2.2, by rw [h2.2]; exact demo_place _ (by decide)⟩

theorem demo_kept (records : List (Fin 10)) : Kept tornCodec tornLib records :=
  ⟨(torn_readable records).faithful, (torn_readable records).truthy⟩

/-- Every hypothesis of `C112_streamed_is_read_partial` holds there, and of the other theorems for days. -/
example (now : DateTime) (rnd : Str) (hash : Str → Nat) : ∃ (m : Machine (Fin 10)) (hist : List (Nat × Call (Fin 10) Unit)) (left : Nat → List (Call (Fin 10) Unit)),
    Served demoCalls hist left ∧ (∀ t, m.todo t = (left t).map (op (dayWriter zJob none) demoValid (fun _ => []))) ∧
    ∃ s', inObjects minio (dayWriter zJob none) demoBlobIds Cloud.demoObjs m.pool.store 4 = .ok s' ∧
      Listed (rangeReader zJob History.feb28 History.mar1 ["tests/".toList]) now rnd demoFolders
        [History.feb28, History.feb29, History.mar1] s' ∧
      let rows := [History.feb28, History.feb29, History.mar1].flatMap fun t =>
        appended none demoValid (fun u => midnight u = t) hist
      (rows ≠ [] → ∃ l, Reader.openReader (rangeReader zJob History.feb28 History.mar1 ["tests/".toList]) now rnd (gcsListed s')
          = .ok (0, l) ∧
        delivered hash tornLib {} (blobBytes s') l = rows.map .row) := by
  obtain ⟨m, h1, h2, h3, h4, h5⟩ := demo_finalized
  obtain ⟨hist, left, g1, g2, -, g3⟩ := C112_streamed_is_read_partial History.daily WriterInit.demo_nested (by decide) none demoConf rfl demoValid
    (fun _ => []) (fun _ _ => .one ()) demoCalls [0, 1, 2, 3, 4] Cloud.demoObjs demoBlobIds demo_range [1, 2, 3, 4, 7] tornLib
    (demo_kept _) now rnd ["tests/".toList] (by decide) hash (demo_asked _ (Or.inl rfl)) m h1 h2 h3 h5
  obtain ⟨s', b1, b2, b3, b4⟩ := g3 4 (by omega)
  exact ⟨m, hist, left, g1, g2, s', b2, b3, (b4 _ (Or.inl rfl)).2⟩

/-- The hypotheses of the theorems for hours hold of a writer that partitions by the hour. -/
example (m : Machine (Fin 10))
    (h1 : Reach demoConf (atStart (hourWriter zJob none) demoValid (fun _ => []) demoCalls [0, 1, 2, 3, 4]) m)
    (h2 : m.owner = none) (h3 : m.pool.writers = []) (h4 : (handed m.pool.store).length ≤ 6) (now : DateTime) (rnd : Str)
    (hash : Str → Nat) :=
  C112_hours_are_read_partial History.daily
    (fun t ht => usual_by (names := ["tests".toList, "data".toList]) (by decide) (by decide) ht)
    (by decide) none demoConf rfl demoValid (fun _ => []) (fun _ _ => .one ())
    demoCalls [0, 1, 2, 3, 4] Cloud.demoObjs demoBlobIds demo_range [1, 2, 3, 4, 7] tornLib (demo_kept _) now rnd
    ["tests/".toList] (by decide) hash (demo_asked _ (Or.inr rfl)) m h1 h2 h3 (demo_place _ h4)

/-- The hypotheses of the theorems for the values of a field hold of a writer that partitions by a field. -/
example (m : Machine (Fin 10))
    (h1 : Reach demoConf (atStart (fieldWriter zJob "country".toList none) demoValid id fieldCalls [0, 1, 2, 3, 4]) m)
    (h2 : m.owner = none) (h3 : m.pool.writers = []) (h4 : (handed m.pool.store).length ≤ 6) (now : DateTime) (rnd : Str)
    (hash : Str → Nat) :=
  C112_filter_reads_value_partial History.daily
    (fun t ht => usual_by (names := ["tests".toList, "data".toList]) (by decide) (by decide) ht)
    (by decide) none demoConf rfl demoValid id demoField fieldCalls [0, 1, 2, 3, 4] Cloud.demoObjs demoBlobIds demo_range
    [1, 2, 7, 8] tornLib (demo_kept _) now rnd ["tests/".toList] (by decide) hash "country".toList
    ⟨"country".toList, "==".toList, "UK".toList⟩ ⟨rfl, Or.inr rfl, country_name, by decide⟩ (by unfold OneValue; decide)
    field_asked m h1 h2 h3 (demo_place _ h4)

end Mabel.CloudStream
