import Verif.Lemmas.CloudOverlap
import Verif.Lemmas.PermBlobs
import Verif.Props.FollowDaysCloud
import Verif.Props.Overlap

/-!
# A reader on object storage that reads while runs are under way: C120
-/

namespace Mabel.CloudOverlap
open Mabel.Py Mabel.Paths Mabel.Naming Mabel.Spec Mabel.Listing Mabel.ObjectStore Mabel.Cloud
open Mabel.Disk (Bytes Disk)
open Mabel.History (Day Daily folderOf on DaysOf rangeReader)
open Mabel.Blobs (Lib Faithful delivered Item readBlob)
open Mabel.CloudStream (Lists byGcs byMinio emptyDisk empty_fresh)
variable {ρ : Type}

/-- What is read of a blob that has an object. -/
theorem fetch_of_mem {s : List (Obj Bytes)} (hs : ObjectStore.Tidy s) {o : Obj Bytes} (ho : o ∈ s) (hf : Fetchable o) :
    blobBytes s (o.bucket ++ '/' :: o.name) = .ok o.data := by
  obtain ⟨path, stem, ext, h1, h2⟩ := hf
  unfold blobBytes
  rw [h1]
  simp only [h2, get_of_mem hs.once ho]

theorem hours_some {w : Job} {first last : DateTime} (hf : Day first) (hl : Day last) (hle : first.seconds ≤ last.seconds)
    (prefixes : List Str) (now : DateTime) : (readerHours (rangeReader w first last prefixes) now).length ≠ 0 := by
  obtain ⟨hours, h1, h2, -⟩ := Dates.dateRange_spec (now := now) hf.valid hl.valid hle
  have hrd : Dates.readerDates now (rangeReader w first last prefixes).start (rangeReader w first last prefixes).stop
      = (first, last) := by
    show (if (EndToEnd.midnight first).le (EndToEnd.midnight last) then (EndToEnd.midnight first, EndToEnd.midnight last) else _) = _
    rw [hf.midnight_eq, hl.midnight_eq, if_pos (by simp [DateTime.le, hle])]
  have e : readerHours (rangeReader w first last prefixes) now = hours := by
    unfold readerHours
    rw [hrd]
    simp only [h1]
    rfl
  rw [e]
  have hm : first ∈ hours := (h2 first).2 ⟨hf.valid, hf.minute, hf.second, DateTime.floorHour_le _, hle⟩
  exact fun h => List.ne_nil_of_mem hm (List.length_eq_zero_iff.1 h)

/-- A day, after runs one after the other. -/
theorem cloud_day
    {w : Job} {ls : List (List Piece)} (hw : Daily w ls) (hfmt : w.format ≠ "text".toList)
    {days : List DateTime} (hdays : ∀ t ∈ days, Day t)
    (runs : List (DateTime × History.Run ρ)) (hok : ∀ p ∈ runs, Day p.1 ∧ Proper (on w p.1) p.2)
    (hord : runs.Pairwise (fun a b => a.1 = b.1 → a.2.now.seconds < b.2.now.seconds))
    (s : List (Obj Bytes)) (hs : ObjectStore.Tidy s)
    (hempty : ∀ t, (t ∈ days ∨ ∃ p ∈ runs, p.1 = t) → ∀ q ∈ files s, beneath ⟨[], folderOf ls t⟩ q = false)
    (lib : Lib ρ) (hlib : ∀ p ∈ runs, Faithful p.2.config.codec lib p.2.records)
    (htr : ∀ p ∈ runs, ∀ x ∈ p.2.records, lib.truthy x = true)
    {t : DateTime} (ht : t ∈ days) (rows : List ρ) (hrows : Cloud.LastOf runs t rows) (n : Nat) (hn : n ≠ 0) :
    ∃ s' names, afterDayRuns gcs w s runs = .ok s' ∧ afterDayRuns minio w s runs = .ok s' ∧
      (∀ m, (m = 1 ∨ m = n) → DayMem w ls (diskBlobsAt (List.replicate m (files s')).flatten) t names) ∧
      (names = [] ↔ rows = []) ∧
      names.flatMap (fun x => readBlob lib {} x (blobBytes s' x)) = rows.map .row ∧
      ∀ x ∈ names, ∃ o ∈ s', x = o.bucket ++ '/' :: o.name ∧ Fetchable o := by
  let S : DateTime → Prop := fun t => t ∈ days ∨ ∃ p ∈ runs, p.1 = t
  have hS : ∀ t, S t → Day t := by
    rintro t (h | ⟨p, hp, rfl⟩)
    · exact hdays t h
    · exact (hok p hp).1
  have hr : ∀ p ∈ runs, S p.1 ∧ Proper (on w p.1) p.2 := fun p hp => ⟨Or.inr ⟨p, hp, rfl⟩, (hok p hp).2⟩
  have hd : ∀ t, S t → History.Fresh (folderOf ls t) emptyDisk := fun t _ => empty_fresh _
  have hsim : Sim ls S s emptyDisk := by
    refine ⟨hs, ?_, nofun⟩
    intro t ht
    rw [List.filter_eq_nil_iff.2]
    · rfl
    · intro q hq
      rw [hempty t ht q hq]
      decide
  obtain ⟨d', s', he, hg, hgm, hsim'⟩ := sim_runs hw hS runs hr hord (fun _ => []) emptyDisk
    ⟨by simp, by simp, fun t ht => (hd t ht).holds _, fun t ht => (hd t ht).tidy⟩ (by simp) s hsim
  have hdr : ∀ p ∈ asDisk w ls runs, S p.1 ∧ p.2.OK (on w p.1) := by
    intro p hp
    obtain ⟨p', hp', rfl⟩ := List.mem_map.1 hp
    exact ⟨(hr p' hp').1, onDisk_ok (hr p' hp').2.toOK⟩
  have hordd : (asDisk w ls runs).Pairwise (fun a b => a.1 = b.1 → a.2.now.seconds < b.2.now.seconds) := by
    unfold asDisk
    rw [List.pairwise_map]
    exact hord
  obtain ⟨names, hnames⟩ := History.day_read hw hfmt hS (asDisk w ls runs) hdr hordd emptyDisk hd lib
    (by intro p hp; obtain ⟨p', hp', rfl⟩ := List.mem_map.1 hp; exact hlib p' hp')
    (by intro p hp; obtain ⟨p', hp', rfl⟩ := List.mem_map.1 hp; exact htr p' hp') he (Or.inl ht) (asDisk_lastOf hw hok hrows)
  obtain ⟨H', d'', he', -, hk, -⟩ := History.all_day_runs hw hS (asDisk w ls runs) hdr hordd
    (fun _ => []) emptyDisk ⟨by simp, by simp, fun t ht => (hd t ht).holds _, fun t ht => (hd t ht).tidy⟩ (by simp)
  have hdd : d'' = d' := by
    have he : History.afterDayRuns w emptyDisk (asDisk w ls runs) = .ok d' := he
    rw [he] at he'
    exact (Except.ok.inj he').symm
  subst hdd
  have hSt : S t := Or.inl ht
  obtain ⟨cl, h1, h3⟩ := hnames.listed
  refine ⟨s', names, hg, hgm, ?_, hnames.empty, ?_, ?_⟩
  · intro m hm
    have hm0 : m ≠ 0 := by rcases hm with rfl | rfl <;> omega
    refine ⟨?_, hnames.order, hnames.beneath, hnames.readable⟩
    have hok' := hw.ok t (hS t hSt).valid
    obtain ⟨l1, k1, k2⟩ := cycle_history hok' (hw.plain t (hS t hSt)) (hk.valid t hSt) (hk.hex t hSt) (hk.holds t hSt)
    obtain ⟨l2, k3, k4⟩ := cycle_history hok' (hw.plain t (hS t hSt)) (hk.valid t hSt) (hk.hex t hSt)
      (files := (List.replicate m d''.names).flatten)
      ⟨fun q hq => (hk.holds t hSt).normal q ((replicate_names _ hm0 _ _).1 hq),
        fun q => by rw [replicate_names _ hm0]; exact (hk.holds t hSt).beneath_iff q⟩
    have e : diskBlobsAt (List.replicate m (files s')).flatten ⟨[], folderOf ls t⟩
        = diskBlobsAt (List.replicate m d''.names).flatten ⟨[], folderOf ls t⟩ := by
      rw [← disk_repeat, ← disk_repeat, sim_listed hsim' hSt]
    refine ⟨l2, by rw [e]; exact k3, fun x => ?_⟩
    have : cl = l1 := by
      have k1 : cycleBlobs none (diskBlobsAt d''.names ⟨[], folderOf ls t⟩) = .ok l1 := k1
      rw [h1] at k1
      exact Except.ok.inj k1
    rw [k4, ← k2, ← this, h3.mem_iff]
  · rw [← hnames.delivers]
    apply List.flatMap_congr
    intro x hx
    rw [sim_read hsim' _ (mem_cycleBlobs h1 (h3.mem_iff.2 hx)).1]
  · intro x hx
    have hx := (mem_cycleBlobs h1 (h3.mem_iff.2 hx)).1
    obtain ⟨q, hq, rfl⟩ := List.mem_map.1 hx
    have hq := (List.mem_filter.1 hq).1
    obtain ⟨o, ho, e, hsl, -, hfe⟩ := hsim'.data q hq
    refine ⟨o, ho, ?_, hfe⟩
    rcases hsim'.tidy.name o ho with hl | ⟨cs, hn, hc, hj⟩
    · rw [hsl] at hl; cases hl
    · have := (file_eq (hsim'.tidy.bucket o ho) hn hc hj).2
      rw [e] at this
      exact this

/-- The last run of a day that is done. -/
theorem rows_lastOf {runs : List (DateTime × History.Run ρ)} {schedule : List Nat} {t : DateTime} {rows : List ρ}
    (h : Rows runs schedule t rows) : Cloud.LastOf (upTo runs schedule) t rows := by
  have key : ∀ i p, runs[i]? = some p → (Finished ({ p.2 with stop := schedule.count i } : History.Run ρ) ↔ Done runs schedule i) := by
    intro i p hp
    constructor
    · rintro ⟨h1, h2, h3⟩
      exact ⟨p, hp, h1, h2, h3⟩
    · rintro ⟨p', hp', h1, h2, h3⟩
      rw [hp] at hp'
      cases hp'
      exact ⟨h1, h2, h3⟩
  rcases h with ⟨i, r, hi, hd, e, hlater⟩ | ⟨hnone, e⟩
  · left
    have hi' : (upTo runs schedule)[i]? = some (t, { r with stop := schedule.count i }) := by rw [upTo_get, hi]; rfl
    refine ⟨(upTo runs schedule).take i, _, (upTo runs schedule).drop (i + 1), Overlap.split_at hi', (key i _ hi).2 hd, ?_, e⟩
    intro p hp hpt
    obtain ⟨j, hj⟩ := List.mem_iff_getElem?.1 hp
    rw [List.getElem?_drop, upTo_get] at hj
    obtain ⟨q, hq, rfl⟩ := Option.map_eq_some_iff.1 hj
    obtain ⟨tq, rq⟩ := q
    have hpt : tq = t := hpt
    subst hpt
    rw [key _ _ hq]
    exact hlater _ rq (by omega) hq
  · right
    refine ⟨?_, e⟩
    intro p hp hpt
    obtain ⟨j, ⟨tq, rq⟩, hq, rfl⟩ := upTo_mem hp
    have hpt : tq = t := hpt
    subst hpt
    rw [key _ _ hq]
    exact hnone j rq hq

theorem files_perm {s s' : List (Obj Bytes)} (h : s.Perm s') : (files s).Perm (files s') := (h.filter _).map _

/-- **C120.**  Any number of runs of batch writers on Google Cloud Storage or on MinIO, each for a day of its own, that may
overlap in time in any way: whichever of them stores its next object, in any order, and each may die after any of them.  A
reader of a range of days that lists each of the folders at any moment while all this goes on, and reads each blob at any
later moment, delivers, day after day, exactly the records that were valid for the last run of the day (in the order in
which the runs began) that was done when the folder of the day was listed: each once, in the order they were appended, and
nothing of a run that is not done; if there is none, it says that there is no data.

Partial: for the datasets and runs of C97, runs of a day that begin in different seconds, and a listing of a folder that is
a single step. -/
theorem C120_read_while_written_partial
    -- the dataset, in a bucket and with no dot in its last folder, and the format
    (w : Job) (ls : List (List Piece)) (hw : Daily w ls) (hfmt : w.format ≠ "text".toList)
    (h2 : 2 ≤ ls.length) (hdot : ∀ l ∈ ls.getLast?, ∀ t, Piece.lit t ∈ l → '.' ∉ t)
    -- the reader
    (first last : DateTime) (hf : Day first) (hl : Day last) (hle : first.seconds ≤ last.seconds)
    (days : List DateTime) (hdays : DaysOf first last days)
    (v : Service) (lists : Lists) (hv : (v = gcs ∧ lists = byGcs) ∨ (v = minio ∧ lists = byMinio))
    -- the runs, each with its day, in the order in which they begin; no two of a day in the same second
    (runs : List (DateTime × History.Run ρ)) (hok : ∀ p ∈ runs, Day p.1 ∧ Proper (on w p.1) p.2)
    (hord : runs.Pairwise (fun a b => a.1 = b.1 → a.2.now.seconds < b.2.now.seconds))
    -- the storage before: nothing in the folders of these days
    (s : List (Obj Bytes)) (hs : ObjectStore.Tidy s)
    (hempty : ∀ t, (t ∈ days ∨ ∃ p ∈ runs, p.1 = t) → ∀ q ∈ files s, beneath ⟨[], folderOf ls t⟩ q = false)
    -- the libraries; no record is empty (see C70)
    (lib : Lib ρ) (hlib : ∀ p ∈ runs, Faithful p.2.config.codec lib p.2.records)
    (htr : ∀ p ∈ runs, ∀ x ∈ p.2.records, lib.truthy x = true)
    -- which of the runs stores its next object
    (schedule : List Nat)
    (now : DateTime) (rnd : Str) (prefixes : List Str) (hallow : Reader.allowed prefixes w.dataset = true)
    (hash : Str → Nat) :
    ∃ objs : Nat → List (Obj Bytes), (∀ k, storageAt v w runs s schedule k = .ok (objs k)) ∧
      -- when each folder is listed, and each blob read
      ∀ (listedAt : Posix → Nat) (readAt : Str → Nat), (∀ t ∈ days, ∀ x, listedAt ⟨[], folderOf ls t⟩ ≤ readAt x) →
      -- the records of each day when its folder is listed
      ∀ rows : DateTime → List ρ, (∀ t ∈ days, Rows runs (schedule.take (listedAt ⟨[], folderOf ls t⟩)) t (rows t)) →
      ((∃ t ∈ days, rows t ≠ []) →
        ∃ l, Reader.openReader (rangeReader w first last prefixes) now rnd
            (fun p => lists (rangeReader w first last prefixes) now rnd (objs (listedAt p)) p) = .ok (0, l) ∧
          delivered hash lib {} (fun x => blobBytes (objs (readAt x)) x) l = (days.flatMap rows).map .row) ∧
      ((∀ t ∈ days, rows t = []) →
        Reader.openReader (rangeReader w first last prefixes) now rnd
          (fun p => lists (rangeReader w first last prefixes) now rnd (objs (listedAt p)) p) = .error .dataNotFound) := by
  have hv' : v = gcs ∨ v = minio := by
    rcases hv with ⟨h, -⟩ | ⟨h, -⟩
    · exact Or.inl h
    · exact Or.inr h
  have hempty' : ∀ p ∈ runs, ∀ q ∈ files s, beneath ⟨[], folderOf ls p.1⟩ q = false :=
    fun p hp => hempty p.1 (Or.inr ⟨p, hp, rfl⟩)
  have hex := fun k => under_way hw hok hord hs hempty' hv' schedule k
  choose objs hobjs htidy hmem using hex
  refine ⟨objs, hobjs, ?_⟩
  intro listedAt readAt hlater rows hrows
  -- what is stored stays
  have hgrow : ∀ k f, k ≤ f → ∀ o ∈ objs k, o ∈ objs f := by
    intro k f hkf o ho
    rcases (hmem k o).1 ho with h | ⟨i, p, hp, h⟩
    · exact (hmem f o).2 (Or.inl h)
    · refine (hmem f o).2 (Or.inr ⟨i, p, hp, ?_⟩)
      have hc : (schedule.take k).count i ≤ (schedule.take f).count i :=
        (List.take_sublist_take_left hkf).count_le i
      exact (List.take_sublist_take_left hc).subset h
  have hday : ∀ t, ∃ names, t ∈ days →
      DayMem w ls (fun p => lists (rangeReader w first last prefixes) now rnd (objs (listedAt p)) p) t names ∧
      (names = [] ↔ rows t = []) ∧
      names.flatMap (fun x => readBlob lib {} x (blobBytes (objs (readAt x)) x)) = (rows t).map .row := by
    intro t
    by_cases ht : t ∈ days
    · obtain ⟨s1, s2, e1, e2, hperm⟩ := as_in_turn hw hok hord hs hempty' hv' schedule (listedAt ⟨[], folderOf ls t⟩)
      have e1' : objs (listedAt ⟨[], folderOf ls t⟩) = s1 := Except.ok.inj ((hobjs _).symm.trans e1)
      have hup : ∀ q ∈ upTo runs (schedule.take (listedAt ⟨[], folderOf ls t⟩)), ∃ p ∈ runs, ∃ k, q = (p.1, { p.2 with stop := k }) := by
        intro q hq
        obtain ⟨i, p, hp, rfl⟩ := upTo_mem hq
        exact ⟨p, List.mem_of_getElem? hp, _, rfl⟩
      obtain ⟨s', names, g1, g2, hmemd, hnil, hdel, hfetch⟩ := cloud_day hw hfmt (fun u hu => ((hdays.mem u).1 hu).1)
        (upTo runs (schedule.take (listedAt ⟨[], folderOf ls t⟩)))
        (by
          intro q hq
          obtain ⟨p, hp, k, rfl⟩ := hup q hq
          have h := (hok p hp).2
          exact ⟨(hok p hp).1, ⟨⟨h.now, h.format, h.hex, h.order⟩, h.marked⟩⟩)
        (upTo_pairwise _ hord) s hs
        (by
          rintro u (hu | ⟨q, hq, rfl⟩)
          · exact hempty u (Or.inl hu)
          · obtain ⟨p, hp, k, rfl⟩ := hup q hq
            exact hempty _ (Or.inr ⟨p, hp, rfl⟩))
        lib
        (by intro q hq; obtain ⟨p, hp, k, rfl⟩ := hup q hq; exact hlib p hp)
        (by intro q hq; obtain ⟨p, hp, k, rfl⟩ := hup q hq; exact htr p hp)
        ht (rows t) (rows_lastOf (hrows t ht)) _ (hours_some (w := w) hf hl hle prefixes now)
      have hs2 : s2 = s' := by
        rcases hv' with rfl | rfl
        · exact Except.ok.inj (e2.symm.trans g1)
        · exact Except.ok.inj (e2.symm.trans g2)
      subst hs2
      rw [← e1'] at hperm
      have ht1 := htidy (listedAt ⟨[], folderOf ls t⟩)
      refine ⟨names, fun _ => ⟨?_, hnil, ?_⟩⟩
      · have hfp : ∀ m, (diskBlobsAt (List.replicate m (files (objs (listedAt ⟨[], folderOf ls t⟩)))).flatten ⟨[], folderOf ls t⟩).Perm
            (diskBlobsAt (List.replicate m (files s2)).flatten ⟨[], folderOf ls t⟩) := by
          intro m
          rw [← disk_repeat, ← disk_repeat]
          have : (diskBlobsAt (files (objs (listedAt ⟨[], folderOf ls t⟩))) ⟨[], folderOf ls t⟩).Perm (diskBlobsAt (files s2) ⟨[], folderOf ls t⟩) :=
            ((files_perm hperm).filter _).map _
          generalize diskBlobsAt (files (objs (listedAt ⟨[], folderOf ls t⟩))) ⟨[], folderOf ls t⟩ = a at this
          generalize diskBlobsAt (files s2) ⟨[], folderOf ls t⟩ = b at this
          induction m with
          | zero => exact .refl _
          | succ m ih => rw [List.replicate_succ, List.replicate_succ]; exact this.append ih
        have hone : ∃ m, (m = 1 ∨ m = (readerHours (rangeReader w first last prefixes) now).length) ∧
            lists (rangeReader w first last prefixes) now rnd (objs (listedAt ⟨[], folderOf ls t⟩)) ⟨[], folderOf ls t⟩
              = diskBlobsAt (List.replicate m (files (objs (listedAt ⟨[], folderOf ls t⟩)))).flatten ⟨[], folderOf ls t⟩ := by
          rcases hv with ⟨-, rfl⟩ | ⟨-, rfl⟩
          · refine ⟨1, Or.inl rfl, ?_⟩
            rw [← disk_repeat]
            simpa [byGcs] using (CloudStream.gcs_lists hw h2 hdot hdays ht1 ht).1
          · refine ⟨_, Or.inr rfl, ?_⟩
            rw [← disk_repeat]
            exact (CloudStream.minio_lists hw h2 hdot hdays now rnd ht1 (rangeReader w first last prefixes) ht).1
        obtain ⟨m, hm, em⟩ := hone
        have hdm := hmemd m hm
        obtain ⟨cl, k1, k2⟩ := hdm.listed
        refine ⟨?_, hdm.order, hdm.beneath, hdm.readable⟩
        have hpr := cycleBlobs_perm none (hfp m)
        rw [k1] at hpr
        show ∃ cl, cycleBlobs none (lists (rangeReader w first last prefixes) now rnd (objs (listedAt ⟨[], folderOf ls t⟩)) ⟨[], folderOf ls t⟩) = .ok cl ∧ _
        rw [em]
        cases hc : cycleBlobs none (diskBlobsAt (List.replicate m (files (objs (listedAt ⟨[], folderOf ls t⟩)))).flatten ⟨[], folderOf ls t⟩) with
        | error e => rw [hc] at hpr; cases hpr
        | ok l =>
          rw [hc] at hpr
          have hpr : l.Perm cl := hpr
          exact ⟨l, rfl, fun x => by rw [hpr.mem_iff, k2]⟩
      · rw [← hdel]
        apply List.flatMap_congr
        intro x hx
        obtain ⟨o, ho, rfl, hfe⟩ := hfetch x hx
        have ho1 := hperm.mem_iff.2 ho
        have hts2 : ObjectStore.Tidy s2 :=
          ⟨fun o ho => ht1.bucket o (hperm.mem_iff.2 ho), fun o ho => ht1.name o (hperm.mem_iff.2 ho), (hperm.map _).nodup_iff.1 ht1.once⟩
        rw [fetch_of_mem hts2 ho hfe, fetch_of_mem (htidy _) (hgrow _ _ (hlater t ht _) o ho1) hfe]
    · exact ⟨[], fun h => absurd h ht⟩
  choose names hnames using hday
  obtain ⟨l, hopen, hdel⟩ := range_open_mem (ρ := ρ) hw hf hl hle hdays _ names (fun t ht => (hnames t ht).1) now rnd prefixes hallow
  have hiff : days.flatMap names = [] ↔ ∀ t ∈ days, rows t = [] := by
    rw [List.flatMap_eq_nil_iff]
    exact forall₂_congr (fun u hu => (hnames u hu).2.1)
  constructor
  · rintro ⟨t, ht, hne⟩
    refine ⟨l, by rw [hopen, if_neg (fun e => hne (hiff.1 e t ht))], ?_⟩
    rw [hdel, List.map_flatMap]
    apply List.flatMap_congr
    intro u hu
    exact (hnames u hu).2.2
  · intro hall
    rw [hopen, if_pos (hiff.2 hall)]

/-! ## Concrete cases, and what fails -/

section
open Mabel.History (run1 run2 run3 feb28 feb29 mar1 feb28_day feb29_day mar1_day daily three_days)
open Mabel.EndToEnd (zJob)

/-- Three runs, two of them for the same day; the first for that day is not done when the second is. -/
def demoRuns : List (DateTime × History.Run (Fin 10)) := [(feb28, run1), (mar1, run2), (mar1, run3)]

/-- The second run stores one object, the third all it has, then the first all it has. -/
def demoSchedule : List Nat := [2, 1, 2, 2, 0, 0]

theorem demo_ok : ∀ p ∈ demoRuns, Day p.1 ∧ Proper (on zJob p.1) p.2 := by
  intro p hp
  simp only [demoRuns, List.mem_cons, List.not_mem_nil, or_false] at hp
  have key : ∀ (r : History.Run (Fin 10)) (t : DateTime), r ∈ [run1, run2, run3] → Proper (on zJob t) r := by
    intro r t hr
    have hm : ∀ r ∈ [run1, run2, run3], r.records.filter r.config.valid ≠ [] := by decide +kernel
    exact ⟨History.demo_on t (History.demo_run_ok r (by
      simp only [List.mem_cons, List.not_mem_nil, or_false] at hr ⊢
      rcases hr with h | h | h <;> simp [h])), Or.inl (hm r hr)⟩
  rcases hp with rfl | rfl | rfl
  · exact ⟨feb28_day, key run1 _ (by simp)⟩
  · exact ⟨mar1_day, key run2 _ (by simp)⟩
  · exact ⟨mar1_day, key run3 _ (by simp)⟩

theorem demo_empty : ∀ t, (t ∈ [feb28, feb29, mar1] ∨ ∃ p ∈ demoRuns, p.1 = t) →
    ∀ q ∈ files demoObjs, beneath ⟨[], folderOf demoFolders t⟩ q = false := by
  have key : ∀ t ∈ [feb28, feb29, mar1], ∀ q ∈ files demoObjs, beneath ⟨[], folderOf demoFolders t⟩ q = false := by
    decide +kernel
  rintro t (ht | ⟨p, hp, rfl⟩)
  · exact key t ht
  · refine key _ ?_
    simp only [demoRuns, List.mem_cons, List.not_mem_nil, or_false] at hp
    rcases hp with rfl | rfl | rfl <;> simp

/-- Only the third run is done when the folders are listed. -/
theorem demo_done (i : Nat) : Done demoRuns (demoSchedule.take 5) i ↔ i = 2 := by
  constructor
  · rintro ⟨p, hp, -, -, h⟩
    match i, hp with
    | 0, hp => cases hp; exact absurd h (by decide +kernel)
    | 1, hp => cases hp; exact absurd h (by decide +kernel)
    | 2, _ => rfl
  · rintro rfl
    exact ⟨_, rfl, rfl, by decide +kernel, by decide +kernel⟩

/-- Non-vacuity: every hypothesis of `C120_read_while_written_partial` holds of these runs; the folders are listed when
the first run has stored its blob but not its marker, and the blobs are read when it is done. -/
example (v : Service) (lists : Lists) (hv : (v = gcs ∧ lists = byGcs) ∨ (v = minio ∧ lists = byMinio)) :
    ∃ early late, storageAt v zJob demoRuns demoObjs demoSchedule 5 = .ok early ∧
      storageAt v zJob demoRuns demoObjs demoSchedule 6 = .ok late ∧
      ∃ l, Reader.openReader (rangeReader zJob feb28 mar1 ["tests/".toList]) ⟨2024, 5, 5, 0, 0, 0⟩ []
          (lists (rangeReader zJob feb28 mar1 ["tests/".toList]) ⟨2024, 5, 5, 0, 0, 0⟩ [] early) = .ok (0, l) ∧
        delivered (fun _ => 0) Mabel.Blobs.demoLib' {} (blobBytes late) l = [.row 1, .row 2, .row 3] := by
  obtain ⟨objs, h1, h2⟩ := C120_read_while_written_partial zJob demoFolders daily (by decide) (by decide) demo_dot
    feb28 mar1 feb28_day mar1_day (by decide +kernel) [feb28, feb29, mar1] three_days v lists hv demoRuns demo_ok
    (by decide +kernel) demoObjs demoObjs_tidy demo_empty Mabel.Blobs.demoLib'
    (by
      intro p hp
      simp only [demoRuns, List.mem_cons, List.not_mem_nil, or_false] at hp
      rcases hp with rfl | rfl | rfl <;> exact Mabel.Blobs.demo_faithful _)
    (fun _ _ _ _ => rfl) demoSchedule ⟨2024, 5, 5, 0, 0, 0⟩ [] ["tests/".toList] (by decide) (fun _ => 0)
  have h3 := h2 (fun _ => 5) (fun _ => 6) (fun _ _ _ => by omega) (fun t => if t = mar1 then [1, 2, 3] else []) (by
    intro t ht
    by_cases e : t = mar1
    · subst e
      refine Or.inl ⟨2, run3, rfl, (demo_done 2).2 rfl, by rw [if_pos rfl]; decide +kernel, ?_⟩
      intro j r' hj hr' hd
      have := (demo_done j).1 hd
      omega
    · refine Or.inr ⟨?_, if_neg e⟩
      intro j r' hr' hd
      have := (demo_done j).1 hd
      subst this
      cases hr'
      exact e rfl)
  obtain ⟨l, h4, h5⟩ := h3.1 ⟨mar1, by simp, by decide⟩
  exact ⟨_, _, h1 5, h1 6, l, h4, h5⟩

/-- A run that begins in the same second as another one for the day. -/
def twin : History.Run (Fin 10) := { run2 with now := run3.now, ids := fun n => run2.ids (n + 5) }

/-- What a reader delivers after this schedule. -/
def readAfter (v : Service) (lists : Lists) (schedule : List Nat) : Option (Option (List (Item (Fin 10)))) :=
  (storageAt v zJob [(mar1, run3), (mar1, twin)] [] schedule schedule.length).toOption.map (fun s =>
    (Reader.openReader (rangeReader zJob mar1 mar1 ["tests/".toList]) ⟨2024, 5, 5, 0, 0, 0⟩ []
      (lists (rangeReader zJob mar1 mar1 ["tests/".toList]) ⟨2024, 5, 5, 0, 0, 0⟩ [] s)).toOption.map (fun x =>
        delivered (fun _ => 0) Mabel.Blobs.demoLib' {} (blobBytes s) x.2))

/-- **C120 fails for runs of a day that begin in the same second**: the first run is done, the second has stored a blob and
is not done, or has died, and part of it is delivered with the first, on both services. -/
theorem C120_same_second_fails :
    readAfter gcs byGcs [0, 0, 0] = some (some [.row 1, .row 2, .row 3]) ∧
    ¬ Done [(mar1, run3), (mar1, twin)] [0, 0, 0, 1] 1 ∧
    readAfter gcs byGcs [0, 0, 0, 1] = some (some [.row 1, .row 2, .row 3, .row 5, .row 5]) ∧
    readAfter minio byMinio [0, 0, 0, 1] = some (some [.row 1, .row 2, .row 3, .row 5, .row 5]) := by
  refine ⟨by decide +kernel, ?_, by decide +kernel, by decide +kernel⟩
  rintro ⟨p, hp, -, -, h⟩
  cases hp
  exact absurd h (by decide +kernel)

end

end Mabel.CloudOverlap
