import Verif.Lemmas.Cloud
import Verif.Lemmas.Repeats
import Verif.Props.Parallel

/-!
# Runs for many days on object storage: C97
-/

namespace Mabel.Cloud
open Mabel.Py Mabel.Paths Mabel.Naming Mabel.Spec Mabel.Listing Mabel.ObjectStore
open Mabel.History (Day Daily folderOf on DaysOf rangeReader)
open Mabel.Blobs (Lib Faithful delivered Item readBlob Names)
variable {ρ : Type}

/-! ## What is listed -/

/-- What is listed for a day, however often. -/
structure DayMem (w : Job) (ls : List (List Piece)) (blobsAt : Posix → List Str) (t : DateTime) (names : List Str) : Prop where
  listed : ∃ cl, cycleBlobs none (blobsAt ⟨[], folderOf ls t⟩) = .ok cl ∧ ∀ x, x ∈ cl ↔ x ∈ names
  order : names.Pairwise (fun x y => x < y)
  beneath : ∀ x ∈ names, ∃ s, x = (on w t).base ls ++ '/' :: s
  readable : ∀ x ∈ names, isReadable x = true

/-- The listing and the reading of a range of days. -/
theorem range_open_mem {w : Job} {ls : List (List Piece)} (hw : Daily w ls)
    {first last : DateTime} (hf : Day first) (hl : Day last) (hle : first.seconds ≤ last.seconds) {days : List DateTime} (hdays : DaysOf first last days)
    (blobsAt : Posix → List Str) (names : DateTime → List Str)
    (hnames : ∀ t ∈ days, DayMem w ls blobsAt t (names t))
    (now : DateTime) (rnd : Str) (prefixes : List Str) (hallow : Reader.allowed prefixes w.dataset = true) :
    ∃ l, Reader.openReader (rangeReader w first last prefixes) now rnd blobsAt
        = (if days.flatMap names = [] then .error .dataNotFound else .ok (0, l)) ∧
      ∀ (lib : Lib ρ) (hash : Str → Nat) (storage : Str → Except Err Mabel.Blobs.Bytes),
        delivered hash lib {} storage l
          = days.flatMap (fun t => (names t).flatMap (fun x => readBlob lib {} x (storage x))) := by
  obtain ⟨hours, hh, hlst⟩ := History.listing_range w hf hl hle prefixes now rnd blobsAt none
  have hvis := History.visited_days hw hf hl hdays hh rnd
  let g : Posix → List Str := fun p => (cycleBlobs none (blobsAt p)).toOption.getD []
  have hg : ∀ t ∈ days, cycleBlobs none (blobsAt ⟨[], folderOf ls t⟩) = .ok (g ⟨[], folderOf ls t⟩) ∧
      ∀ x, x ∈ g ⟨[], folderOf ls t⟩ ↔ x ∈ names t := by
    intro t ht
    obtain ⟨cl, h1, h2⟩ := (hnames t ht).listed
    have : g ⟨[], folderOf ls t⟩ = cl := by simp only [g, h1]; rfl
    rw [this]
    exact ⟨h1, h2⟩
  have hlt : (days.flatMap names).Pairwise (fun x y => x < y) := by
    rw [List.pairwise_flatMap]
    refine ⟨fun t ht => (hnames t ht).order, ?_⟩
    refine List.Pairwise.imp_of_mem ?_ hdays.order
    intro s t hs ht hst x hx y hy
    obtain ⟨a, rfl⟩ := (hnames s hs).beneath x hx
    obtain ⟨b, rfl⟩ := (hnames t ht).beneath y hy
    obtain ⟨h1, h2⟩ := hw.order s t ((hdays.mem s).1 hs).1 ((hdays.mem t).1 ht).1 hst
    exact (append_lt_append h1).2 (Or.inl h2)
  have hlist : ∃ l, Reader.listing (rangeReader w first last prefixes) now rnd blobsAt 0 = .ok l ∧
      ∀ x, x ∈ l ↔ x ∈ days.flatMap names := by
    rw [hlst]
    unfold listBlobs
    rw [mapM_map (g := g)]
    · refine ⟨_, rfl, ?_⟩
      intro x
      rw [mem_sorted, ← List.flatMap_def, (hvis.flatMap_right g).mem_iff, List.flatMap_map, List.mem_flatMap,
        List.mem_flatMap]
      exact ⟨fun ⟨t, ht, hx⟩ => ⟨t, ht, ((hg t ht).2 x).1 hx⟩, fun ⟨t, ht, hx⟩ => ⟨t, ht, ((hg t ht).2 x).2 hx⟩⟩
    · intro p hp
      obtain ⟨t, ht, rfl⟩ := List.mem_map.1 (hvis.mem_iff.1 hp)
      exact (hg t ht).1
  obtain ⟨l, hlist, hml⟩ := hlist
  have hfl : Reader.freshnessLimit (rangeReader w first last prefixes) now = .ok 0 := by
    unfold Reader.freshnessLimit
    have : Dates.parseDelta (rangeReader w first last prefixes).freshness = 0 :=
      show Dates.parseDelta [] = 0 by decide
    simp [this]
  have hr : l.filter isReadable = l := by
    rw [List.filter_eq_self]
    intro x hx
    obtain ⟨t, ht, hx⟩ := List.mem_flatMap.1 ((hml x).1 hx)
    exact (hnames t ht).readable x hx
  refine ⟨l, ?_, ?_⟩
  · unfold Reader.openReader
    have ha : Reader.allowed (rangeReader w first last prefixes).prefixes (rangeReader w first last prefixes).dataset
        = true := hallow
    rw [ha, hfl]
    simp only [Bool.not_true, Bool.false_eq_true, if_false]
    unfold chooseBlobs
    rw [hlist]
    simp only [if_neg (show ¬ (0 : Int) > 1 by omega), hr]
    have : (l = []) ↔ (days.flatMap names = []) := by
      rw [List.eq_nil_iff_forall_not_mem, List.eq_nil_iff_forall_not_mem]
      exact forall_congr' (fun x => not_congr (hml x))
    by_cases h : l = []
    · rw [if_pos h, if_pos (this.1 h)]
    · rw [if_neg h, if_neg (fun e => h (this.2 e))]
  · intro lib hash storage
    rw [Mabel.Blobs.delivered_repeats hash lib {} storage l _ ?_ hlt hml, List.flatMap_assoc]
    intro hx
    obtain ⟨u, hu, hx⟩ := List.mem_flatMap.1 hx
    obtain ⟨s, hs⟩ := (hnames u hu).beneath _ hx
    simp at hs

theorem replicate_names (n : Nat) (hn : n ≠ 0) (l : List Posix) (q : Posix) :
    q ∈ (List.replicate n l).flatten ↔ q ∈ l := by
  simp [List.mem_flatten, List.mem_replicate, hn]

/-- The days of the range and those of the runs. -/
theorem cloud_core
    (w : Job) (ls : List (List Piece)) (hw : Daily w ls) (hfmt : w.format ≠ "text".toList)
    (h2 : 2 ≤ ls.length) (hdot : ∀ l ∈ ls.getLast?, ∀ t, Piece.lit t ∈ l → '.' ∉ t)
    (first last : DateTime) (hf : Day first) (hl : Day last) (hle : first.seconds ≤ last.seconds)
    (days : List DateTime) (hdays : DaysOf first last days)
    (runs : List (DateTime × History.Run ρ)) (hok : ∀ p ∈ runs, Day p.1 ∧ Proper (on w p.1) p.2)
    (hord : runs.Pairwise (fun a b => a.1 = b.1 → a.2.now.seconds < b.2.now.seconds))
    (s : List (Obj Disk.Bytes)) (hs : ObjectStore.Tidy s)
    (hempty : ∀ t, (t ∈ days ∨ ∃ p ∈ runs, p.1 = t) → ∀ q ∈ files s, beneath ⟨[], folderOf ls t⟩ q = false)
    (lib : Lib ρ) (hlib : ∀ p ∈ runs, Faithful p.2.config.codec lib p.2.records)
    (htr : ∀ p ∈ runs, ∀ x ∈ p.2.records, lib.truthy x = true)
    (rows : DateTime → List ρ) (hrows : ∀ t ∈ days, LastOf runs t (rows t))
    (now : DateTime) (rnd : Str) (prefixes : List Str) (hallow : Reader.allowed prefixes w.dataset = true)
    (hash : Str → Nat) :
    ∃ s', afterDayRuns gcs w s runs = .ok s' ∧
      afterDayRuns minio w s runs = .ok s' ∧
      (∀ t ∈ days, gcsBlobsAt s' ⟨[], folderOf ls t⟩ = .ok (gcsListed s' ⟨[], folderOf ls t⟩)) ∧
      (∀ t ∈ days, minioBlobsAt s' rnd (readerHours (rangeReader w first last prefixes) now) ⟨[], folderOf ls t⟩
        = .ok (minioListed (rangeReader w first last prefixes) now rnd s' ⟨[], folderOf ls t⟩)) ∧
      ∀ blobsAt, (blobsAt = gcsListed s' ∨ blobsAt = minioListed (rangeReader w first last prefixes) now rnd s') →
      ((∃ t ∈ days, rows t ≠ []) → ∃ l,
        Reader.openReader (rangeReader w first last prefixes) now rnd blobsAt = .ok (0, l) ∧
        delivered hash lib {} (blobBytes s') l = (days.flatMap rows).map .row) ∧
      ((∀ t ∈ days, rows t = []) →
        Reader.openReader (rangeReader w first last prefixes) now rnd blobsAt = .error .dataNotFound) := by
  let S : DateTime → Prop := fun t => t ∈ days ∨ ∃ p ∈ runs, p.1 = t
  have hS : ∀ t, S t → Day t := by
    rintro t (h | ⟨p, hp, rfl⟩)
    · exact ((hdays.mem t).1 h).1
    · exact (hok p hp).1
  have hr : ∀ p ∈ runs, S p.1 ∧ Proper (on w p.1) p.2 := fun p hp => ⟨Or.inr ⟨p, hp, rfl⟩, (hok p hp).2⟩
  let d : Disk.Disk := ⟨[], [], fun _ => []⟩
  have hd : ∀ t, S t → History.Fresh (folderOf ls t) d := fun t _ => ⟨nofun, List.nodup_nil, nofun, nofun⟩
  have hsim : Sim ls S s d := by
    refine ⟨hs, ?_, nofun⟩
    intro t ht
    rw [List.filter_eq_nil_iff.2]
    · rfl
    · intro q hq
      rw [hempty t ht q hq]
      decide
  obtain ⟨d', s', he, hg, hgm, hsim'⟩ := sim_runs hw hS runs hr hord (fun _ => []) d
    ⟨by simp, by simp, fun t ht => (hd t ht).holds _, fun t ht => (hd t ht).tidy⟩ (by simp) s hsim
  -- the same runs on a disk
  let druns := runs.map (fun p => (p.1, onDisk (on w p.1) ls p.2))
  have hmem : ∀ p ∈ druns, ∃ p' ∈ runs, p = (p'.1, onDisk (on w p'.1) ls p'.2) := by
    intro p hp
    obtain ⟨p', hp', rfl⟩ := List.mem_map.1 hp
    exact ⟨p', hp', rfl⟩
  have hlast : ∀ t ∈ days, History.LastOf w druns t (rows t) := by
    intro t ht
    rcases hrows t ht with ⟨pre, r, post, e, h1, h2, h3⟩ | ⟨h1, h2⟩
    · refine Or.inl ⟨pre.map (fun p => (p.1, onDisk (on w p.1) ls p.2)), onDisk (on w t) ls r,
        post.map (fun p => (p.1, onDisk (on w p.1) ls p.2)), by simp [druns, e], ?_, ?_, h3⟩
      · have hm : (t, r) ∈ runs := by rw [e]; simp
        exact (onDisk_finished (hw.ok t (hok _ hm).1.valid) (hok _ hm).2).2 h1
      · intro p hp ept
        obtain ⟨p', hp', rfl⟩ := List.mem_map.1 hp
        have hm : p' ∈ runs := by rw [e]; simp [hp']
        have ept : p'.1 = t := ept
        rw [← ept]
        rw [onDisk_finished (hw.ok p'.1 (hok _ hm).1.valid) (hok _ hm).2]
        exact h2 p' hp' ept
    · refine Or.inr ⟨?_, h2⟩
      intro p hp ept
      obtain ⟨p', hp', rfl⟩ := hmem p hp
      have ept : p'.1 = t := ept
      rw [← ept]
      rw [onDisk_finished (hw.ok p'.1 (hok _ hp').1.valid) (hok _ hp').2]
      exact h1 p' hp' ept
  have hread : ∀ t, ∃ names, t ∈ days → History.DayRead w ls lib d' t (rows t) names := by
    intro t
    by_cases ht : t ∈ days
    · obtain ⟨names, hn⟩ := History.day_read hw hfmt hS druns
        (by
          intro p hp
          obtain ⟨p', hp', rfl⟩ := hmem p hp
          exact ⟨(hr p' hp').1, onDisk_ok (hr p' hp').2.toOK⟩)
        (by rw [List.pairwise_map]; exact hord) d hd lib
        (by intro p hp; obtain ⟨p', hp', rfl⟩ := hmem p hp; exact hlib p' hp')
        (by intro p hp; obtain ⟨p', hp', rfl⟩ := hmem p hp; exact htr p' hp') he (Or.inl ht) (hlast t ht)
      exact ⟨names, fun _ => hn⟩
    · exact ⟨[], fun h => absurd h ht⟩
  choose names hnames using hread
  have hdr : ∀ p ∈ druns, S p.1 ∧ p.2.OK (on w p.1) := by
    intro p hp
    obtain ⟨p', hp', rfl⟩ := hmem p hp
    exact ⟨(hr p' hp').1, onDisk_ok (hr p' hp').2.toOK⟩
  obtain ⟨H', d'', he', -, hk, -⟩ := History.all_day_runs hw hS druns hdr (by rw [List.pairwise_map]; exact hord)
    (fun _ => []) d ⟨by simp, by simp, fun t ht => (hd t ht).holds _, fun t ht => (hd t ht).tidy⟩ (by simp)
  have hdd : d'' = d' := by
    have he : History.afterDayRuns w d druns = .ok d' := he
    rw [he] at he'
    exact (Except.ok.inj he').symm
  subst hdd
  -- the folders
  have hpath : ∀ t ∈ days, ∃ c cs, c :: cs = folderOf ls t ∧ Comp c ∧ (∀ x ∈ cs, Comp x) ∧ cs ≠ [] ∧
      (∀ f ∈ cs.getLast?, '.' ∉ f) ∧ '{' ∉ join ['/'] cs := by
    intro t ht
    have hday := ((hdays.mem t).1 ht).1
    obtain ⟨c, cs, -, e, hrest⟩ := reader_path (hw.ok t hday.valid) h2 hdot rnd hday.valid
    exact ⟨c, cs, e, hrest⟩
  have hlisted : ∀ t ∈ days, gcsBlobsAt s' ⟨[], folderOf ls t⟩ = .ok (diskBlobsAt d''.names ⟨[], folderOf ls t⟩) := by
    intro t ht
    obtain ⟨c, cs, e, hc, hcs, hn, hdt, -⟩ := hpath t ht
    rw [← sim_listed hsim' (Or.inl ht), ← e]
    exact C79_listing_partial s' hsim'.tidy c cs hc hcs hn hdt
  have hlistedm : ∀ t ∈ days, minioBlobsAt s' rnd (readerHours (rangeReader w first last prefixes) now) ⟨[], folderOf ls t⟩
      = .ok (diskBlobsAt (List.replicate (readerHours (rangeReader w first last prefixes) now).length d''.names).flatten
          ⟨[], folderOf ls t⟩) := by
    intro t ht
    obtain ⟨c, cs, e, hc, hcs, hn, hdt, hbr⟩ := hpath t ht
    rw [← disk_repeat, ← sim_listed hsim' (Or.inl ht), ← e]
    exact C79_minio_listing_partial s' hsim'.tidy c cs hc hcs hn hdt hbr rnd _
  have hgl : ∀ t ∈ days, gcsListed s' ⟨[], folderOf ls t⟩ = diskBlobsAt d''.names ⟨[], folderOf ls t⟩ := by
    intro t ht
    unfold gcsListed
    rw [hlisted t ht]
    rfl
  have hml : ∀ t ∈ days, minioListed (rangeReader w first last prefixes) now rnd s' ⟨[], folderOf ls t⟩
      = diskBlobsAt (List.replicate (readerHours (rangeReader w first last prefixes) now).length d''.names).flatten
          ⟨[], folderOf ls t⟩ := by
    intro t ht
    unfold minioListed
    rw [hlistedm t ht]
    rfl
  have hhours : (readerHours (rangeReader w first last prefixes) now).length ≠ 0 := by
    obtain ⟨hours, h1, h2, -⟩ := Dates.dateRange_spec (now := now) hf.valid hl.valid hle
    have hrd : Dates.readerDates now (rangeReader w first last prefixes).start (rangeReader w first last prefixes).stop
        = (first, last) := by
      show (if (EndToEnd.midnight first).le (EndToEnd.midnight last) then (EndToEnd.midnight first, EndToEnd.midnight last) else _) = _
      rw [hf.midnight_eq, hl.midnight_eq, if_pos (by simp [DateTime.le, hle])]
    have e : readerHours (rangeReader w first last prefixes) now = hours := by
      unfold readerHours
      rw [hrd]
      simp only [h1]
      rfl
    rw [e]
    have hm : first ∈ hours := (h2 first).2 ⟨hf.valid, hf.minute, hf.second, DateTime.floorHour_le _, hle⟩
    exact fun h => List.ne_nil_of_mem hm (List.length_eq_zero_iff.1 h)
  have hdm : ∀ blobsAt, (blobsAt = gcsListed s' ∨ blobsAt = minioListed (rangeReader w first last prefixes) now rnd s') →
      ∀ t ∈ days, DayMem w ls blobsAt t (names t) := by
    intro blobsAt hb t ht
    obtain ⟨cl, h1, h3⟩ := (hnames t ht).listed
    have hSt : S t := Or.inl ht
    refine ⟨?_, (hnames t ht).order, (hnames t ht).beneath, (hnames t ht).readable⟩
    rcases hb with rfl | rfl
    · rw [hgl t ht]
      exact ⟨cl, h1, fun x => h3.mem_iff⟩
    · rw [hml t ht]
      have hok' := hw.ok t (hS t hSt).valid
      obtain ⟨l1, k1, k2⟩ := cycle_history hok' (hw.plain t (hS t hSt)) (hk.valid t hSt) (hk.hex t hSt) (hk.holds t hSt)
      obtain ⟨l2, k3, k4⟩ := cycle_history hok' (hw.plain t (hS t hSt)) (hk.valid t hSt) (hk.hex t hSt)
        (files := (List.replicate (readerHours (rangeReader w first last prefixes) now).length d''.names).flatten)
        ⟨fun q hq => (hk.holds t hSt).normal q ((replicate_names _ hhours _ _).1 hq),
          fun q => by rw [replicate_names _ hhours]; exact (hk.holds t hSt).beneath_iff q⟩
      refine ⟨l2, k3, fun x => ?_⟩
      have : cl = l1 := by
        have k1 : cycleBlobs none (diskBlobsAt d''.names ⟨[], folderOf ls t⟩) = .ok l1 := k1
        rw [h1] at k1
        exact Except.ok.inj k1
      rw [k4, ← k2, ← this, h3.mem_iff]
  refine ⟨s', hg, hgm, fun t ht => by rw [hlisted t ht, hgl t ht], fun t ht => by rw [hlistedm t ht, hml t ht], ?_⟩
  intro blobsAt hb
  obtain ⟨l, hopen, hdel⟩ := range_open_mem (ρ := ρ) hw hf hl hle hdays blobsAt names (hdm blobsAt hb) now rnd prefixes hallow
  refine ⟨?_, ?_⟩
  · rintro ⟨t, ht, hne⟩
    have hne' : days.flatMap names ≠ [] := by
      intro e
      exact hne ((hnames t ht).empty.1 ((List.flatMap_eq_nil_iff.1 e) t ht))
    refine ⟨l, by rw [hopen, if_neg hne'], ?_⟩
    rw [hdel, List.map_flatMap]
    apply List.flatMap_congr
    intro u hu
    rw [← (hnames u hu).delivers]
    apply List.flatMap_congr
    intro x hx
    obtain ⟨cl, h1, h2⟩ := (hnames u hu).listed
    rw [sim_read hsim' _ (mem_cycleBlobs h1 (h2.mem_iff.2 hx)).1]
  · intro hall
    rw [hopen, if_pos]
    rw [List.flatMap_eq_nil_iff]
    intro t ht
    exact (hnames t ht).empty.2 (hall t ht)

/-- **C97.**  Any number of runs of batch writers on Google Cloud Storage or on MinIO, each for a day of its own, one
after the other; each appends any records and finalizes, and each may die after any of the objects it stores.  Then a
serial reader of a range of days can list each of the days, and delivers, day after day, exactly the records that were
valid for the last run of the day that was not stopped, each once, in the order they were appended (on MinIO too,
although there every blob is listed once for each hour of the range).  What is missing: a dataset that is a whole bucket
or whose last folder has a dot in it (`C79_whole_bucket_fails`, `C79_dotted_folder_fails`), a run of which nothing is
valid that marks itself as complete (`C79_empty_run_fails`), and a reader on MinIO that goes on from a saved cursor or
that reads with several processes (`C97_minio_resume_fails`, `C97_minio_parallel_fails`). -/
theorem C97_range_is_read_partial
    -- the dataset, and the format
    (w : Job) (ls : List (List Piece)) (hw : Daily w ls) (hfmt : w.format ≠ "text".toList)
    -- it is in a bucket, and its last folder has no dot
    (h2 : 2 ≤ ls.length) (hdot : ∀ l ∈ ls.getLast?, ∀ t, Piece.lit t ∈ l → '.' ∉ t)
    -- the reader
    (first last : DateTime) (hf : Day first) (hl : Day last) (hle : first.seconds ≤ last.seconds)
    (days : List DateTime) (hdays : DaysOf first last days)
    -- the runs, each with its day
    (runs : List (DateTime × History.Run ρ)) (hok : ∀ p ∈ runs, Day p.1 ∧ Proper (on w p.1) p.2)
    (hord : runs.Pairwise (fun a b => a.1 = b.1 → a.2.now.seconds < b.2.now.seconds))
    -- the storage before: nothing in the folders of these days
    (s : List (Obj Disk.Bytes)) (hs : ObjectStore.Tidy s)
    (hempty : ∀ t, (t ∈ days ∨ ∃ p ∈ runs, p.1 = t) → ∀ q ∈ files s, beneath ⟨[], folderOf ls t⟩ q = false)
    -- the libraries; no record is empty (see C70)
    (lib : Lib ρ) (hlib : ∀ p ∈ runs, Faithful p.2.config.codec lib p.2.records)
    (htr : ∀ p ∈ runs, ∀ x ∈ p.2.records, lib.truthy x = true)
    -- the records of each day; there is at least one
    (rows : DateTime → List ρ) (hrows : ∀ t ∈ days, LastOf runs t (rows t)) (hne : ∃ t ∈ days, rows t ≠ [])
    (now : DateTime) (rnd : Str) (prefixes : List Str) (hallow : Reader.allowed prefixes w.dataset = true)
    (hash : Str → Nat) :
    -- on Google Cloud Storage
    (∃ s' l, afterDayRuns gcs w s runs = .ok s' ∧
      (∀ t ∈ days, gcsBlobsAt s' ⟨[], folderOf ls t⟩ = .ok (gcsListed s' ⟨[], folderOf ls t⟩)) ∧
      Reader.openReader (rangeReader w first last prefixes) now rnd (gcsListed s') = .ok (0, l) ∧
      delivered hash lib {} (blobBytes s') l = (days.flatMap rows).map .row) ∧
    -- on MinIO
    (∃ s' l, afterDayRuns minio w s runs = .ok s' ∧
      (∀ t ∈ days, minioBlobsAt s' rnd (readerHours (rangeReader w first last prefixes) now) ⟨[], folderOf ls t⟩
        = .ok (minioListed (rangeReader w first last prefixes) now rnd s' ⟨[], folderOf ls t⟩)) ∧
      Reader.openReader (rangeReader w first last prefixes) now rnd
        (minioListed (rangeReader w first last prefixes) now rnd s') = .ok (0, l) ∧
      delivered hash lib {} (blobBytes s') l = (days.flatMap rows).map .row) := by
  obtain ⟨s', h1, h1', h3, h3', h4⟩ := cloud_core w ls hw hfmt h2 hdot first last hf hl hle days hdays runs hok hord s hs hempty
    lib hlib htr rows hrows now rnd prefixes hallow hash
  obtain ⟨l, h5, h6⟩ := (h4 _ (Or.inl rfl)).1 hne
  obtain ⟨l', h5', h6'⟩ := (h4 _ (Or.inr rfl)).1 hne
  exact ⟨⟨s', l, h1, h3, h5, h6⟩, ⟨s', l', h1', h3', h5', h6'⟩⟩

/-- **C97.**  If no run for a day of the range came to its end, the reader says that there is no data. -/
theorem C97_nothing_finished_partial
    (w : Job) (ls : List (List Piece)) (hw : Daily w ls) (hfmt : w.format ≠ "text".toList)
    (h2 : 2 ≤ ls.length) (hdot : ∀ l ∈ ls.getLast?, ∀ t, Piece.lit t ∈ l → '.' ∉ t)
    (first last : DateTime) (hf : Day first) (hl : Day last) (hle : first.seconds ≤ last.seconds)
    (days : List DateTime) (hdays : DaysOf first last days)
    (runs : List (DateTime × History.Run ρ)) (hok : ∀ p ∈ runs, Day p.1 ∧ Proper (on w p.1) p.2)
    (hord : runs.Pairwise (fun a b => a.1 = b.1 → a.2.now.seconds < b.2.now.seconds))
    (hnone : ∀ p ∈ runs, p.1 ∈ days → ¬ Finished p.2)
    (s : List (Obj Disk.Bytes)) (hs : ObjectStore.Tidy s)
    (hempty : ∀ t, (t ∈ days ∨ ∃ p ∈ runs, p.1 = t) → ∀ q ∈ files s, beneath ⟨[], folderOf ls t⟩ q = false)
    (lib : Lib ρ) (hlib : ∀ p ∈ runs, Faithful p.2.config.codec lib p.2.records)
    (htr : ∀ p ∈ runs, ∀ x ∈ p.2.records, lib.truthy x = true)
    (now : DateTime) (rnd : Str) (prefixes : List Str) (hallow : Reader.allowed prefixes w.dataset = true) :
    ∃ s', afterDayRuns gcs w s runs = .ok s' ∧ afterDayRuns minio w s runs = .ok s' ∧
      Reader.openReader (rangeReader w first last prefixes) now rnd (gcsListed s') = .error .dataNotFound ∧
      Reader.openReader (rangeReader w first last prefixes) now rnd
        (minioListed (rangeReader w first last prefixes) now rnd s') = .error .dataNotFound := by
  obtain ⟨s', h1, h1', -, -, h4⟩ := cloud_core w ls hw hfmt h2 hdot first last hf hl hle days hdays runs hok hord s hs hempty
    lib hlib htr (fun _ => []) (fun t ht => Or.inr ⟨fun p hp e => hnone p hp (e ▸ ht), rfl⟩) now rnd prefixes hallow
    (fun _ => 0)
  exact ⟨s', h1, h1', (h4 _ (Or.inl rfl)).2 (fun _ _ => rfl), (h4 _ (Or.inr rfl)).2 (fun _ _ => rfl)⟩

/-! ## What fails, and concrete cases -/

section
open Mabel.History (run1 run2 run3 run4 feb28 feb29 mar1 feb28_day feb29_day mar1_day daily three_days demoRows)
open Mabel.EndToEnd (zJob)

/-- Objects of other datasets, one of which has a name that begins alike, and a folder made by a console. -/
def demoObjs : List (Obj Disk.Bytes) :=
  [⟨"tests".toList, "data2/year_2024/month_02/day_29/x.jsonl".toList, [1]⟩, ⟨"tests".toList, "data/".toList, []⟩]

/-- The first and the third run come to their end; the second dies after one object, the fourth after two, before the
marker. -/
def demoCloudRuns : List (DateTime × History.Run (Fin 10)) :=
  [(feb28, run1), (mar1, { run2 with stop := 1 }), (mar1, run3), (feb28, { run4 with stop := 2 })]

theorem demoObjs_tidy : ObjectStore.Tidy demoObjs where
  bucket := by
    intro o ho
    simp only [demoObjs, List.mem_cons, List.not_mem_nil, or_false] at ho
    rcases ho with rfl | rfl <;> exact ⟨by decide, by decide, by decide⟩
  name := by
    intro o ho
    simp only [demoObjs, List.mem_cons, List.not_mem_nil, or_false] at ho
    rcases ho with rfl | rfl
    · refine Or.inr ⟨["data2".toList, "year_2024".toList, "month_02".toList, "day_29".toList, "x.jsonl".toList],
        by decide, ?_, by decide⟩
      intro c hc
      simp only [List.mem_cons, List.not_mem_nil, or_false] at hc
      rcases hc with rfl | rfl | rfl | rfl | rfl <;> exact ⟨by decide, by decide, by decide⟩
    · exact Or.inl (by decide)
  once := by decide

theorem demo_cloud_ok : ∀ p ∈ demoCloudRuns, Day p.1 ∧ Proper (on zJob p.1) p.2 := by
  have key : ∀ (r : History.Run (Fin 10)) (n : Nat) (t : DateTime), r ∈ [run1, run2, run3, run4] →
      Proper (on zJob t) ({ r with stop := n } : History.Run (Fin 10)) := by
    intro r n t hr
    have h := History.demo_on t (History.demo_run_ok r hr)
    have hm : ∀ r ∈ [run1, run2, run3, run4], r.records.filter r.config.valid ≠ [] := by decide +kernel
    exact ⟨⟨h.now, h.format, h.hex, h.order⟩, Or.inl (hm r hr)⟩
  intro p hp
  simp only [demoCloudRuns, List.mem_cons, List.not_mem_nil, or_false] at hp
  rcases hp with rfl | rfl | rfl | rfl
  · exact ⟨feb28_day, key run1 1000 _ (by simp)⟩
  · exact ⟨mar1_day, key run2 1 _ (by simp)⟩
  · exact ⟨mar1_day, key run3 1000 _ (by simp)⟩
  · exact ⟨feb28_day, key run4 2 _ (by simp)⟩

theorem demo_cloud_last : ∀ t ∈ [feb28, feb29, mar1], LastOf demoCloudRuns t (demoRows t) := by
  intro t ht
  simp only [List.mem_cons, List.not_mem_nil, or_false] at ht
  rcases ht with rfl | rfl | rfl
  · refine Or.inl ⟨[], run1, [(mar1, { run2 with stop := 1 }), (mar1, run3), (feb28, { run4 with stop := 2 })], rfl,
      ⟨rfl, by decide, by decide +kernel⟩, ?_, by decide⟩
    intro p hp e
    simp only [List.mem_cons, List.not_mem_nil, or_false] at hp
    rcases hp with rfl | rfl | rfl
    · exact absurd e (by decide)
    · exact absurd e (by decide)
    · exact fun h => absurd h.2.2 (by decide +kernel)
  · refine Or.inr ⟨?_, by decide⟩
    intro p hp e
    simp only [demoCloudRuns, List.mem_cons, List.not_mem_nil, or_false] at hp
    rcases hp with rfl | rfl | rfl | rfl <;> exact absurd e (by decide)
  · refine Or.inl ⟨[(feb28, run1), (mar1, { run2 with stop := 1 })], run3, [(feb28, { run4 with stop := 2 })], rfl,
      ⟨rfl, by decide, by decide +kernel⟩, ?_, by decide⟩
    intro p hp e
    simp only [List.mem_cons, List.not_mem_nil, or_false] at hp
    rw [hp] at e
    exact absurd e (by decide)

theorem demo_cloud_empty : ∀ t, (t ∈ [feb28, feb29, mar1] ∨ ∃ p ∈ demoCloudRuns, p.1 = t) →
    ∀ q ∈ files demoObjs, beneath ⟨[], folderOf demoFolders t⟩ q = false := by
  have key : ∀ t ∈ [feb28, feb29, mar1], ∀ q ∈ files demoObjs, beneath ⟨[], folderOf demoFolders t⟩ q = false := by
    decide +kernel
  rintro t (ht | ⟨p, hp, rfl⟩)
  · exact key t ht
  · refine key _ ?_
    simp only [demoCloudRuns, List.mem_cons, List.not_mem_nil, or_false] at hp
    rcases hp with rfl | rfl | rfl | rfl <;> simp

theorem demo_dot : ∀ l ∈ demoFolders.getLast?, ∀ t, Piece.lit t ∈ l → '.' ∉ t := by
  intro l hl t ht
  simp only [demoFolders, List.getLast?_cons_cons, List.getLast?_singleton, Option.mem_def, Option.some.injEq] at hl
  subst hl
  simp only [List.mem_cons, List.not_mem_nil, or_false, Piece.lit.injEq, reduceCtorEq] at ht
  subst ht
  decide

/-- Non-vacuity: every hypothesis of `C97_range_is_read_partial` holds of these runs. -/
example : ∃ s' l, afterDayRuns minio zJob demoObjs demoCloudRuns = .ok s' ∧
    Reader.openReader (rangeReader zJob feb28 mar1 ["tests/".toList]) ⟨2024, 5, 5, 0, 0, 0⟩ []
      (minioListed (rangeReader zJob feb28 mar1 ["tests/".toList]) ⟨2024, 5, 5, 0, 0, 0⟩ [] s') = .ok (0, l) ∧
    delivered (fun _ => 0) Mabel.Blobs.demoLib' {} (blobBytes s') l = [.row 4, .row 1, .row 2, .row 3] := by
  obtain ⟨-, s', l, h1, -, h2, h3⟩ := C97_range_is_read_partial zJob demoFolders daily (by decide) (by decide) demo_dot
    feb28 mar1 feb28_day mar1_day (by decide +kernel) [feb28, feb29, mar1] three_days demoCloudRuns demo_cloud_ok
    (by decide +kernel) demoObjs demoObjs_tidy demo_cloud_empty Mabel.Blobs.demoLib'
    (by
      intro p hp
      simp only [demoCloudRuns, List.mem_cons, List.not_mem_nil, or_false] at hp
      rcases hp with rfl | rfl | rfl | rfl <;> exact Mabel.Blobs.demo_faithful _)
    (fun _ _ _ _ => rfl) demoRows demo_cloud_last ⟨feb28, by simp, by decide⟩ ⟨2024, 5, 5, 0, 0, 0⟩ []
    ["tests/".toList] (by decide) (fun _ => 0)
  exact ⟨s', l, h1, h2, h3⟩

/-- Non-vacuity: a day whose only run died before its marker. -/
example : ∃ s', afterDayRuns gcs zJob demoObjs [(feb29, { run2 with stop := 2 })] = .ok s' ∧
    Reader.openReader (rangeReader zJob feb29 feb29 ["tests/".toList]) ⟨2024, 5, 5, 0, 0, 0⟩ [] (gcsListed s')
      = .error .dataNotFound := by
  obtain ⟨s', h1, -, h2, -⟩ := C97_nothing_finished_partial zJob demoFolders daily (by decide) (by decide) demo_dot
    feb29 feb29 feb29_day feb29_day (by decide) [feb29]
    ⟨by
      intro t
      simp only [List.mem_singleton]
      exact ⟨by rintro rfl; exact ⟨feb29_day, Nat.le_refl _, Nat.le_refl _⟩,
        fun ⟨ht, h1, h2⟩ => ht.eq_of_seconds feb29_day (Nat.le_antisymm h2 h1)⟩, by simp⟩
    [(feb29, { run2 with stop := 2 })]
    (by
      have h := History.demo_on feb29 (History.demo_run_ok run2 (by simp))
      intro p hp
      rw [List.mem_singleton.1 hp]
      exact ⟨feb29_day, ⟨⟨h.now, h.format, h.hex, h.order⟩, Or.inl (by decide +kernel)⟩⟩)
    (by simp)
    (by
      intro p hp _
      rw [List.mem_singleton.1 hp]
      exact fun h => absurd h.2.2 (by decide +kernel))
    demoObjs demoObjs_tidy
    (by
      have key : ∀ q ∈ files demoObjs, beneath ⟨[], folderOf demoFolders feb29⟩ q = false := by decide +kernel
      rintro t (ht | ⟨p, hp, rfl⟩)
      · rw [List.mem_singleton.1 ht]; exact key
      · rw [List.mem_singleton.1 hp]; exact key)
    Mabel.Blobs.demoLib'
    (by
      intro p hp
      rw [List.mem_singleton.1 hp]
      exact Mabel.Blobs.demo_faithful _)
    (fun _ _ _ _ => rfl) ⟨2024, 5, 5, 0, 0, 0⟩ [] ["tests/".toList] (by decide)
  exact ⟨s', h1, h2⟩

/-- A reader of two days. -/
abbrev twoDays : Reader.Config := rangeReader zJob feb28 feb29 ["tests/".toList]

/-- The only blob of the first run. -/
abbrev onlyBlob : Str := "tests/data/year_2024/month_02/day_28/as_at_20240301-100000/0a-1.jsonl.zstd".toList

theorem two_days_listed : ∃ s', afterDayRuns minio zJob [] [(feb28, run1)] = .ok s' ∧
    Reader.openReader twoDays ⟨2024, 5, 5, 0, 0, 0⟩ [] (minioListed twoDays ⟨2024, 5, 5, 0, 0, 0⟩ [] s')
      = .ok (0, List.replicate 25 onlyBlob) ∧
    readBlob Mabel.Blobs.demoLib' {} onlyBlob (blobBytes s' onlyBlob) = [.row 4] := by
  have key : (afterDayRuns minio zJob [] [(feb28, run1)]).toOption.map (fun s' =>
      ((Reader.openReader twoDays ⟨2024, 5, 5, 0, 0, 0⟩ [] (minioListed twoDays ⟨2024, 5, 5, 0, 0, 0⟩ [] s')).toOption,
        readBlob Mabel.Blobs.demoLib' {} onlyBlob (blobBytes s' onlyBlob)))
      = some (some (0, List.replicate 25 onlyBlob), [.row 4]) := by decide +kernel
  generalize hx : afterDayRuns minio zJob [] [(feb28, run1)] = x at key
  cases x with
  | error e => cases key
  | ok s' =>
    have k := Option.some.inj key
    refine ⟨s', rfl, ?_, congrArg Prod.snd k⟩
    have k1 := congrArg Prod.fst k
    simp only at k1
    generalize Reader.openReader twoDays ⟨2024, 5, 5, 0, 0, 0⟩ [] (minioListed twoDays ⟨2024, 5, 5, 0, 0, 0⟩ [] s') = y at k1
    cases y with
    | error e => cases k1
    | ok y => rw [Option.some.inj k1]

theorem resume_again {α : Type} (hash : Str → Nat) (content : Str → List α) (x : α) (hc : content onlyBlob = [x]) :
    ∃ doc, Cursor.session hash content (List.replicate 25 onlyBlob) none 1 = .ok ([x], some doc) ∧
      (Cursor.readAll hash content (List.replicate 25 onlyBlob) (some doc)).yields.map (·.1) = [x] := by
  have hs : Py.sorted Py.strLe (List.replicate 25 onlyBlob) = List.replicate 25 onlyBlob := by decide +kernel
  have hne : onlyBlob ≠ [] := by decide
  generalize onlyBlob = b at *
  obtain ⟨a, as, rfl⟩ := List.exists_cons_of_ne_nil hne
  -- a round that starts with nothing read, wherever the cursor says it is
  have round : ∀ loc : Int, Cursor.rounds content 26 ⟨List.replicate 25 (a :: as), [], [], loc⟩ none
      = ⟨[(x, ⟨List.replicate 25 (a :: as), [], a :: as, 0⟩)],
        .ok ⟨List.replicate 25 (a :: as), [a :: as], [], -1⟩⟩ := by
    intro loc
    have h1 : Cursor.nextBlob ⟨List.replicate 25 (a :: as), [], [], loc⟩ none
        = .ok (some (a :: as), ⟨List.replicate 25 (a :: as), [], a :: as, -1⟩) := by
      simp [Cursor.nextBlob, Cursor.finished, List.replicate_succ]
    have h2 : Cursor.nextBlob ⟨List.replicate 25 (a :: as), [], a :: as, 0⟩ (some (a :: as))
        = .ok (none, ⟨List.replicate 25 (a :: as), [a :: as], [], -1⟩) := by
      simp [Cursor.nextBlob, Cursor.finished, List.replicate_succ]
    rw [Cursor.rounds, h1]
    have h3 : Cursor.rounds content 25 ⟨List.replicate 25 (a :: as), [], a :: as, 0⟩ (some (a :: as))
        = ⟨[], .ok ⟨List.replicate 25 (a :: as), [a :: as], [], -1⟩⟩ := by
      rw [Cursor.rounds, h2]
    simp only [show Cursor.skip ⟨List.replicate 25 (a :: as), [], a :: as, -1⟩ = 0 from rfl, hc, List.drop_zero,
      Cursor.deliver, List.getLast?_singleton, Option.map_some, Option.getD_some, Nat.cast_zero, h3, List.append_nil]
  refine ⟨⟨some (Cursor.toHex (Cursor.toBytes (List.replicate 25 false))), some (hash (a :: as)), some 0⟩, ?_, ?_⟩
  · unfold Cursor.session Cursor.readAll Cursor.init
    simp only [hs, List.length_replicate, round]
    simp [Cursor.save]
  · unfold Cursor.readAll Cursor.init Cursor.load
    have hf : (List.replicate 25 (a :: as)).filter (fun b => hash b == hash (a :: as)) = List.replicate 25 (a :: as) := by
      rw [List.filter_eq_self]
      intro b hb
      rw [List.eq_of_mem_replicate hb]
      simp
    have hx : Cursor.fromHex (Cursor.toHex (Cursor.toBytes (List.replicate 25 false))) = .ok [0, 0, 0, 0] := by rfl
    simp only [hs, hf, hx]
    rw [show Cursor.fromBytes [0, 0, 0, 0] = List.replicate 32 false by decide +kernel]
    simp only [List.length_replicate]
    rw [if_neg (by decide)]
    have hz : (((List.replicate 25 (a :: as)).zip (List.replicate 32 false)).filter (·.2)).map (·.1) = [] := by
      rfl
    simp only [hz, List.length_replicate]
    rw [if_neg (by decide), round]
    rfl

/-- **On MinIO a saved cursor does not work**: one record was stored; a reader of two days delivers it and saves its
cursor; the reader that goes on from there delivers it once more, whatever the hash of names is: the blob is listed 25
times, so the cursor finds its place 25 times, and forgets it. -/
theorem C97_minio_resume_fails (hash : Str → Nat) : ∃ s' l doc, afterDayRuns minio zJob [] [(feb28, run1)] = .ok s' ∧
    Reader.openReader twoDays ⟨2024, 5, 5, 0, 0, 0⟩ [] (minioListed twoDays ⟨2024, 5, 5, 0, 0, 0⟩ [] s') = .ok (0, l) ∧
    let content := fun b => readBlob Mabel.Blobs.demoLib' {} b (blobBytes s' b)
    Cursor.session hash content l none 1 = .ok ([.row 4], some doc) ∧
    (Cursor.readAll hash content l (some doc)).yields.map (·.1) = [.row 4] := by
  obtain ⟨s', h1, h2, h3⟩ := two_days_listed
  obtain ⟨doc, h4, h5⟩ := resume_again hash (fun b => readBlob Mabel.Blobs.demoLib' {} b (blobBytes s' b)) _ h3
  exact ⟨s', _, doc, h1, h2, h4, h5⟩

/-- **On MinIO several processes deliver a record more than once**: one record was stored, and a run of a reader of two
days with any number of worker processes from two on, in which none of them crashes, delivers it 25 times when it has
come to its end. -/
theorem C97_minio_parallel_fails : ∃ s' l, afterDayRuns minio zJob [] [(feb28, run1)] = .ok s' ∧
    Reader.openReader twoDays ⟨2024, 5, 5, 0, 0, 0⟩ [] (minioListed twoDays ⟨2024, 5, 5, 0, 0, 0⟩ [] s') = .ok (0, l) ∧
    let content := fun b => readBlob Mabel.Blobs.demoLib' {} b (blobBytes s' b)
    ∀ n, 1 ≤ n → ∀ es, (∀ i, Parallel.Event.crash i ∉ es) → ∀ σ, Parallel.exec l es (Parallel.init l n) = some σ →
      σ.ended = some .done → Parallel.output content σ = List.replicate 25 (.row 4) := by
  obtain ⟨s', h1, h2, h3⟩ := two_days_listed
  refine ⟨s', _, h1, h2, ?_⟩
  intro content n hn es hc σ hσ hd
  obtain ⟨order, hp, ho, -⟩ := Parallel.C26_each_blob_once content _ n hn es hc σ hσ hd
  rw [ho, List.perm_replicate.1 hp]
  have hc : content onlyBlob = [.row 4] := h3
  simp only [List.flatMap_replicate, hc]
  rfl

end

end Mabel.Cloud
