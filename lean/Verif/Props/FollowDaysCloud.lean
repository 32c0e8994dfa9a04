import Verif.Props.FollowDays
import Verif.Props.FollowCloud

/-!
# C119 on object storage
-/

namespace Mabel.Cloud
open Mabel.Py Mabel.Paths Mabel.Naming Mabel.Spec Mabel.Listing Mabel.ObjectStore Mabel.Dates
open Mabel.History (Day Daily folderOf DaysOf rangeReader Fresh on)
open Mabel.Blobs (Lib Faithful Item readBlob)
open Mabel.Cursor (Doc handOut)
open Mabel.StreamStorage (Sitting sitAll sitOut)
open Mabel.CloudStream (Lists byGcs byMinio sitIn sitInAll sitInOut Mirror sitInAll_mirror emptyDisk empty_fresh one_hour gcs_lists minio_lists)
open Mabel.Disk (Disk)
open Mabel.History (feb28 feb29 mar1 feb28_day feb29_day mar1_day run1 run2 run3 daily three_days)
open Mabel.EndToEnd (zJob)
variable {ρ : Type}

/-- The days come in turn: a run that is made after those of `before` and comes to its end is for a later day than all that
came to their ends before it, of those that are for the days a caller reads. -/
def InTurn (days : List DateTime) (before runs : List (DateTime × History.Run ρ)) : Prop :=
  ∀ pre p post, runs = pre ++ p :: post → before.length ≤ pre.length → p.1 ∈ days → Finished p.2 →
    ∀ q ∈ pre, q.1 ∈ days → Finished q.2 → q.1.seconds < p.1.seconds

/-- The same runs on a disk. -/
noncomputable def asDisk (w : Job) (ls : List (List Piece)) (runs : List (DateTime × History.Run ρ)) : List (DateTime × History.Run ρ) :=
  runs.map (fun p => (p.1, onDisk (on w p.1) ls p.2))

theorem asDisk_lastOf {w : Job} {ls : List (List Piece)} (hw : Daily w ls) {runs : List (DateTime × History.Run ρ)}
    (hok : ∀ p ∈ runs, Day p.1 ∧ Proper (on w p.1) p.2) {t : DateTime} {rows : List ρ} (h : LastOf runs t rows) :
    History.LastOf w (asDisk w ls runs) t rows := by
  rcases h with ⟨pre, r, post, e, h1, h2, h3⟩ | ⟨h1, h2⟩
  · refine Or.inl ⟨asDisk w ls pre, onDisk (on w t) ls r, asDisk w ls post, by simp [asDisk, e], ?_, ?_, h3⟩
    · have hm : (t, r) ∈ runs := by rw [e]; simp
      exact (onDisk_finished (hw.ok t (hok _ hm).1.valid) (hok _ hm).2).2 h1
    · intro p hp ept
      obtain ⟨p', hp', rfl⟩ := List.mem_map.1 hp
      have hm : p' ∈ runs := by rw [e]; simp [hp']
      have ept : p'.1 = t := ept
      rw [← ept]
      rw [onDisk_finished (hw.ok p'.1 (hok _ hm).1.valid) (hok _ hm).2]
      exact h2 p' hp' ept
  · refine Or.inr ⟨?_, h2⟩
    intro p hp ept
    obtain ⟨p', hp', rfl⟩ := List.mem_map.1 hp
    have ept : p'.1 = t := ept
    rw [← ept]
    rw [onDisk_finished (hw.ok p'.1 (hok _ hp').1.valid) (hok _ hp').2]
    exact h1 p' hp' ept

theorem asDisk_inTurn {w : Job} {ls : List (List Piece)} (hw : Daily w ls) {days : List DateTime} {before runs : List (DateTime × History.Run ρ)}
    (hok : ∀ p ∈ runs, Day p.1 ∧ Proper (on w p.1) p.2) (h : InTurn days before runs) :
    History.InTurn w days (asDisk w ls before) (asDisk w ls runs) := by
  intro pre p post e hle hp hfin q hq hqd hqf
  unfold asDisk at e
  obtain ⟨pre', more, e1, rfl, e2⟩ := List.map_eq_append_iff.1 e
  obtain ⟨p', post', rfl, rfl, rfl⟩ := List.map_eq_cons_iff.1 e2
  obtain ⟨q', hq', rfl⟩ := List.mem_map.1 hq
  have m1 : p' ∈ runs := by rw [e1]; simp
  have m2 : q' ∈ runs := by rw [e1]; simp [hq']
  refine h pre' p' post' e1 (by simpa [asDisk] using hle) hp ?_ q' hq' hqd ?_
  · exact (onDisk_finished (hw.ok p'.1 (hok _ m1).1.valid) (hok _ m1).2).1 hfin
  · exact (onDisk_finished (hw.ok q'.1 (hok _ m2).1.valid) (hok _ m2).2).1 hqf

/-- **C119 (days in turn, object storage).**  The same on Google Cloud Storage, where each run may die after any of the
objects it stores, and on MinIO for a reader of one day.

Partial: as on a disk, and for the datasets of C97; a reader of two days on MinIO cannot be gone on with
(`C118_minio_two_days_fails`). -/
theorem C119_days_in_turn_cloud_partial
    -- the dataset, in a bucket and with no dot in its last folder, and the format
    (w : Job) (ls : List (List Piece)) (hw : Daily w ls) (hfmt : w.format ≠ "text".toList)
    (h2 : 2 ≤ ls.length) (hdot : ∀ l ∈ ls.getLast?, ∀ t, Piece.lit t ∈ l → '.' ∉ t)
    -- the reader
    (first final : DateTime) (hf : Day first) (hl : Day final) (hle : first.seconds ≤ final.seconds)
    (days : List DateTime) (hdays : DaysOf first final days)
    (prefixes : List Str) (hallow : Reader.allowed prefixes w.dataset = true)
    (v : Service) (lists : Lists) (hv : (v = gcs ∧ lists = byGcs) ∨ (v = minio ∧ lists = byMinio ∧ first = final))
    -- the sittings, each with the runs made by then and the storage, and the last
    (sits : List (List (DateTime × History.Run ρ) × List (Obj Disk.Bytes) × Sitting)) (last : List (DateTime × History.Run ρ))
    (slast : List (Obj Disk.Bytes))
    (hgrow : (sits.map (·.1) ++ [last]).Pairwise (fun a b => a <+: b))
    (hturn : ∀ s ∈ sits, InTurn days s.1 last)
    -- the runs
    (hok : ∀ p ∈ last, Day p.1 ∧ Proper (on w p.1) p.2)
    (hord : last.Pairwise (fun a b => a.1 = b.1 → a.2.now.seconds < b.2.now.seconds))
    -- the storage before: nothing in the folders of these days
    (s : List (Obj Disk.Bytes)) (hs : ObjectStore.Tidy s)
    (hempty : ∀ t, (t ∈ days ∨ ∃ p ∈ last, p.1 = t) → ∀ q ∈ files s, beneath ⟨[], folderOf ls t⟩ q = false)
    (hobjs : ∀ x ∈ sits, afterDayRuns v w s x.1 = .ok x.2.1) (hslast : afterDayRuns v w s last = .ok slast)
    -- the libraries; no record is empty (see C70)
    (lib : Lib ρ) (hlib : ∀ p ∈ last, Faithful p.2.config.codec lib p.2.records) (htr : ∀ p ∈ last, ∀ x ∈ p.2.records, lib.truthy x = true)
    -- the records of each day at each sitting
    (rows : List (DateTime × History.Run ρ) → DateTime → List ρ)
    (hrows : ∀ runs ∈ sits.map (·.1) ++ [last], ∀ t ∈ days, LastOf runs t (rows runs t))
    -- the last reader; the blobs it lists are not too many, and their hashes differ
    (now : DateTime) (rnd : Str)
    (hnot : ∀ x ∈ sits, ∀ l l',
      Reader.openReader (rangeReader w first final prefixes) now rnd (lists (rangeReader w first final prefixes) now rnd x.2.1) = .ok (0, l) →
      Reader.openReader (rangeReader w first final prefixes) now rnd (lists (rangeReader w first final prefixes) now rnd slast) = .ok (0, l') →
      l'.length ≤ 8 * ((l.length + 7) / 8))
    (hash : Str → Nat)
    (hhash : ∀ l,
      Reader.openReader (rangeReader w first final prefixes) now rnd (lists (rangeReader w first final prefixes) now rnd slast) = .ok (0, l) →
      ∀ x ∈ l, ∀ y ∈ l, hash x = hash y → x = y) :
    ∃ got doc rest, sitInAll lists hash lib (rangeReader w first final prefixes) (sits.map (·.2)) none = .ok (got, doc) ∧
      sitInOut lists hash lib (rangeReader w first final prefixes) now rnd slast doc = .ok rest ∧
      got.flatten ++ rest = (days.flatMap (rows last)).map .row ∧
      got = handOut 0 (sits.map fun s => ((days.flatMap (rows s.1)).map .row, s.2.2.take)) := by
  let S : DateTime → Prop := fun t => t ∈ days ∨ ∃ p ∈ last, p.1 = t
  have hS : ∀ t, S t → Day t := by
    rintro t (h | ⟨p, hp, rfl⟩)
    · exact ((hdays.mem t).1 h).1
    · exact (hok p hp).1
  have hpre : ∀ runs ∈ sits.map (·.1) ++ [last], runs <+: last := by
    intro runs hruns
    rcases List.mem_append.1 hruns with h | h
    · exact (List.pairwise_append.1 hgrow).2.2 runs h last (by simp)
    · rw [List.mem_singleton.1 h]
  have hl' : last ∈ sits.map (·.1) ++ [last] := by simp
  have hmem : ∀ x ∈ sits, x.1 ∈ sits.map (·.1) ++ [last] := fun s hs => List.mem_append_left _ (List.mem_map_of_mem hs)
  have hsim : Sim ls S s emptyDisk := by
    refine ⟨hs, ?_, nofun⟩
    intro t ht
    rw [List.filter_eq_nil_iff.2]
    · rfl
    · intro q hq
      rw [hempty t ht q hq]
      decide
  -- the same on a disk
  have hdisk : ∀ runs, ∃ d', runs ∈ sits.map (·.1) ++ [last] → History.afterDayRuns w emptyDisk (asDisk w ls runs) = .ok d' ∧
      ∀ s', afterDayRuns v w s runs = .ok s' → Mirror lists (rangeReader w first final prefixes) s' d' := by
    intro runs
    by_cases hruns : runs ∈ sits.map (·.1) ++ [last]
    · have hsub : ∀ p ∈ runs, p ∈ last := fun p hp => (hpre runs hruns).subset hp
      obtain ⟨d', s', he, hg, hm, hsim'⟩ := sim_runs hw hS runs
        (fun p hp => ⟨Or.inr ⟨p, hsub p hp, rfl⟩, (hok p (hsub p hp)).2⟩) (List.Pairwise.sublist (hpre runs hruns).sublist hord)
        (fun _ => []) emptyDisk ⟨by simp, by simp, fun t _ => (empty_fresh _).holds _, fun t _ => (empty_fresh (folderOf ls t)).tidy⟩ (by simp) s hsim
      refine ⟨d', fun _ => ⟨he, ?_⟩⟩
      intro s'' hs''
      have e : s'' = s' := by
        rcases hv with ⟨rfl, -⟩ | ⟨rfl, -, -⟩
        · rw [hg] at hs''; exact (Except.ok.inj hs'').symm
        · rw [hm] at hs''; exact (Except.ok.inj hs'').symm
      subst e
      constructor
      · intro now rnd
        refine open_perm hw hf hl hle hdays ?_ now rnd prefixes none
        intro u hu
        have hlists : lists (rangeReader w first final prefixes) now rnd s'' ⟨[], folderOf ls u⟩
            = diskBlobsAt (files s'') ⟨[], folderOf ls u⟩ := by
          rcases hv with ⟨-, rfl⟩ | ⟨-, rfl, rfl⟩
          · exact (gcs_lists hw h2 hdot hdays hsim'.tidy hu).1
          · refine (minio_lists hw h2 hdot hdays now rnd hsim'.tidy (rangeReader w first first prefixes) hu).1.trans ?_
            rw [one_hour hf]
            simp
        rw [hlists, sim_listed hsim' (Or.inl hu)]
      · intro now rnd back l hl1 b hb
        obtain ⟨-, h⟩ := open_same hw hf hl hle hdays
          (f := diskBlobsAt d'.names) (g := diskBlobsAt d'.names) (fun _ _ _ => Iff.rfl) now rnd prefixes none
        obtain ⟨-, -, -, h⟩ := h back l hl1
        obtain ⟨q, hq⟩ := h b hb
        exact sim_read hsim' q hq
    · exact ⟨emptyDisk, fun h => absurd h hruns⟩
  choose disk hdisk using hdisk
  have hmirror : ∀ x ∈ sits, Mirror lists (rangeReader w first final prefixes) x.2.1 (disk x.1) :=
    fun x hx => (hdisk x.1 (hmem x hx)).2 _ (hobjs x hx)
  have hmlast := (hdisk last hl').2 _ hslast
  obtain ⟨got, doc, rest, g1, g2, g3, g4⟩ := History.C119_days_in_turn_partial w ls hw hfmt first final hf hl hle days hdays prefixes hallow
    (sits.map fun x => (asDisk w ls x.1, disk x.1, x.2.2)) (asDisk w ls last) (disk last)
    (by
      have e : (sits.map fun x => (asDisk w ls x.1, disk x.1, x.2.2)).map (·.1) ++ [asDisk w ls last]
          = (sits.map (·.1) ++ [last]).map (asDisk w ls) := by
        rw [List.map_append, List.map_map, List.map_map]; rfl
      rw [e, List.pairwise_map]
      exact hgrow.imp (fun h => h.map _))
    (by
      intro x' hx'
      obtain ⟨x, hx, rfl⟩ := List.mem_map.1 hx'
      exact asDisk_inTurn hw hok (hturn x hx))
    (by
      intro p hp
      obtain ⟨p', hp', rfl⟩ := List.mem_map.1 hp
      exact ⟨(hok p' hp').1, onDisk_ok (hok p' hp').2.toOK⟩)
    (by unfold asDisk; rw [List.pairwise_map]; exact hord)
    emptyDisk (fun t _ => empty_fresh _)
    (by
      intro x' hx'
      obtain ⟨x, hx, rfl⟩ := List.mem_map.1 hx'
      exact (hdisk x.1 (hmem x hx)).1)
    (hdisk last hl').1 lib
    (by intro p hp; obtain ⟨p', hp', rfl⟩ := List.mem_map.1 hp; exact hlib p' hp')
    (by intro p hp; obtain ⟨p', hp', rfl⟩ := List.mem_map.1 hp; exact htr p' hp')
    (History.dayRows w)
    (by
      intro runs' hruns' t ht
      have e : (sits.map fun x => (asDisk w ls x.1, disk x.1, x.2.2)).map (·.1) ++ [asDisk w ls last]
          = (sits.map (·.1) ++ [last]).map (asDisk w ls) := by
        rw [List.map_append, List.map_map, List.map_map]; rfl
      rw [e] at hruns'
      obtain ⟨runs, hruns, rfl⟩ := List.mem_map.1 hruns'
      have h := asDisk_lastOf hw (fun p hp => hok p ((hpre runs hruns).subset hp)) (hrows runs hruns t ht)
      rw [← History.lastOf_rows h]
      exact h)
    now rnd
    (by
      intro x' hx' l l' k1 k2
      obtain ⟨x, hx, rfl⟩ := List.mem_map.1 hx'
      refine hnot x hx l l' ?_ ?_
      · rw [(hmirror x hx).opened]; exact k1
      · rw [hmlast.opened]; exact k2)
    hash
    (by
      intro l k
      exact hhash l (by rw [hmlast.opened]; exact k))
  have hrow : ∀ runs ∈ sits.map (·.1) ++ [last], days.flatMap (History.dayRows w (asDisk w ls runs)) = days.flatMap (rows runs) := by
    intro runs hruns
    apply List.flatMap_congr
    intro t ht
    exact (History.lastOf_rows (asDisk_lastOf hw (fun p hp => hok p ((hpre runs hruns).subset hp)) (hrows runs hruns t ht))).symm
  refine ⟨got, doc, rest, ?_, ?_, ?_, ?_⟩
  · have h := sitInAll_mirror (a := rangeReader w first final prefixes) hash lib (sits.map fun x => (x.2.1, disk x.1, x.2.2))
      (by
        intro y hy
        obtain ⟨x, hx, rfl⟩ := List.mem_map.1 hy
        exact hmirror x hx) none
    rw [List.map_map, List.map_map] at h
    rw [List.map_map] at g1
    exact h.trans g1
  · rw [hmlast.sitOut]; exact g2
  · rw [g3, hrow last hl']
  · rw [g4, List.map_map]
    congr 1
    apply List.map_congr_left
    intro x hx
    show ((days.flatMap (History.dayRows w (asDisk w ls x.1))).map _, _) = _
    rw [hrow x.1 (hmem x hx)]

/-! ## A concrete case -/

/-- The storage after some runs. -/
def daysObjs (runs : List (DateTime × History.Run (Fin 10))) : List (Obj Disk.Bytes) :=
  (afterDayRuns gcs zJob demoObjs runs).toOption.getD []

theorem daysObjs_eq {runs : List (DateTime × History.Run (Fin 10))} (h : (afterDayRuns gcs zJob demoObjs runs).toOption.isSome = true) :
    afterDayRuns gcs zJob demoObjs runs = .ok (daysObjs runs) := by
  unfold daysObjs
  cases e : afterDayRuns gcs zJob demoObjs runs with
  | error e' => rw [e] at h; cases h
  | ok d => rfl

/-- A run for the second day dies after its first object. -/
def diedCloud : DateTime × History.Run (Fin 10) := (feb29, { run2 with stop := 1 })

def doneCloud : List (DateTime × History.Run (Fin 10)) := [(feb28, run1), diedCloud, (mar1, run3)]

/-- After the run of the first day, and when one of the second has died. -/
def demoCloudSits : List (List (DateTime × History.Run (Fin 10)) × List (Obj Disk.Bytes) × Sitting) :=
  [([(feb28, run1)], daysObjs [(feb28, run1)], ⟨mar1, [], 1⟩),
    ([(feb28, run1), diedCloud], daysObjs [(feb28, run1), diedCloud], ⟨mar1, [], 5⟩)]

theorem cloud_run_day {p : DateTime × History.Run (Fin 10)} (hp : p ∈ doneCloud) :
    Day p.1 ∧ Proper (on zJob p.1) p.2 ∧ p.1 ∈ [feb28, feb29, mar1] := by
  simp only [doneCloud, List.mem_cons, List.not_mem_nil, or_false] at hp
  rcases hp with rfl | rfl | rfl
  · exact ⟨feb28_day, ⟨History.demo_on _ <| History.demo_run_ok run1 (by simp), Or.inl (by decide +kernel)⟩, by simp⟩
  · have h := History.demo_on feb29 (History.demo_run_ok run2 (by simp))
    exact ⟨feb29_day, ⟨⟨h.now, h.format, h.hex, h.order⟩, Or.inl (by decide +kernel)⟩, by simp [diedCloud]⟩
  · exact ⟨mar1_day, ⟨History.demo_on _ <| History.demo_run_ok run3 (by simp), Or.inl (by decide +kernel)⟩, by simp⟩

theorem cloud_rows_of : ∀ runs ∈ demoCloudSits.map (·.1) ++ [doneCloud], ∀ t ∈ [feb28, feb29, mar1],
    LastOf runs t (History.demoRowsOf runs t) := by
  have f1 : Finished run1 := ⟨rfl, by decide, by decide +kernel⟩
  have f2 : ¬ Finished diedCloud.2 := fun h => absurd h.2.2 (by decide +kernel)
  have f3 : Finished run3 := ⟨rfl, by decide, by decide +kernel⟩
  intro runs hruns t ht
  simp only [demoCloudSits, List.map_cons, List.map_nil, List.cons_append, List.nil_append, List.mem_cons, List.not_mem_nil, or_false] at hruns
  simp only [List.mem_cons, List.not_mem_nil, or_false] at ht
  rcases ht with rfl | rfl | rfl
  · rcases hruns with rfl | rfl | rfl
    · exact Or.inl ⟨[], run1, [], rfl, f1, by simp, by decide⟩
    · exact Or.inl ⟨[], run1, [diedCloud], rfl, f1, by
        intro p hp e
        rw [List.mem_singleton.1 hp] at e
        exact absurd e (by decide), by decide⟩
    · exact Or.inl ⟨[], run1, [diedCloud, (mar1, run3)], rfl, f1, by
        intro p hp e
        simp only [List.mem_cons, List.not_mem_nil, or_false] at hp
        rcases hp with rfl | rfl <;> exact absurd e (by decide), by decide⟩
  · rcases hruns with rfl | rfl | rfl <;> refine Or.inr ⟨?_, by decide⟩ <;> intro p hp e <;>
      simp only [doneCloud, List.mem_cons, List.not_mem_nil, or_false] at hp
    · rw [hp] at e; exact absurd e (by decide)
    · rcases hp with rfl | rfl
      · exact absurd e (by decide)
      · exact f2
    · rcases hp with rfl | rfl | rfl
      · exact absurd e (by decide)
      · exact f2
      · exact absurd e (by decide)
  · rcases hruns with rfl | rfl | rfl
    · refine Or.inr ⟨?_, by decide⟩
      intro p hp e
      rw [List.mem_singleton.1 hp] at e
      exact absurd e (by decide)
    · refine Or.inr ⟨?_, by decide⟩
      intro p hp e
      simp only [List.mem_cons, List.not_mem_nil, or_false] at hp
      rcases hp with rfl | rfl <;> exact absurd e (by decide)
    · exact Or.inl ⟨[(feb28, run1), diedCloud], run3, [], rfl, f3, by simp, by decide⟩

/-- How many blobs are listed. -/
def listedObjs (s : List (Obj Disk.Bytes)) : Option Nat :=
  (Reader.openReader History.threeDays mar1 [] (byGcs History.threeDays mar1 [] s)).toOption.map (·.2.length)

/-- Non-vacuity: every hypothesis of `C119_days_in_turn_cloud_partial` holds of these runs and sittings. -/
example : ∃ got doc rest, sitInAll byGcs History.textNumber Mabel.Blobs.demoLib' History.threeDays (demoCloudSits.map (·.2)) none = .ok (got, doc) ∧
    sitInOut byGcs History.textNumber Mabel.Blobs.demoLib' History.threeDays mar1 [] (daysObjs doneCloud) doc = .ok rest ∧
    got.flatten ++ rest = [.row 4, .row 1, .row 2, .row 3] ∧ got = [[.row 4], []] := by
  have e1 : (afterDayRuns gcs zJob demoObjs [(feb28, run1)]).toOption.isSome = true := by decide +kernel
  have e2 : (afterDayRuns gcs zJob demoObjs [(feb28, run1), diedCloud]).toOption.isSome = true := by decide +kernel
  have e3 : (afterDayRuns gcs zJob demoObjs doneCloud).toOption.isSome = true := by decide +kernel
  have k1 := daysObjs_eq e1
  have k2 := daysObjs_eq e2
  have k3 := daysObjs_eq e3
  clear e1 e2 e3
  have hlast : ∀ n ∈ listedObjs (daysObjs doneCloud), n ≤ 8 := by decide +kernel
  have hsome : ∀ s ∈ demoCloudSits, ∀ n ∈ listedObjs s.2.1, 1 ≤ n := by decide +kernel
  have hkey : ∀ t ∈ [feb28, feb29, mar1], ∀ q ∈ files demoObjs, beneath ⟨[], folderOf demoFolders t⟩ q = false := by decide +kernel
  have hdays : doneCloud.Pairwise (fun q p => q.1.seconds < p.1.seconds) := by decide +kernel
  obtain ⟨got, doc, rest, h1, h2, h3, h4⟩ := C119_days_in_turn_cloud_partial zJob demoFolders daily (by decide) (by decide) demo_dot
    feb28 mar1 feb28_day mar1_day (by decide +kernel) [feb28, feb29, mar1] three_days ["tests/".toList] (by decide) gcs byGcs
    (Or.inl ⟨rfl, rfl⟩) demoCloudSits doneCloud (daysObjs doneCloud)
    (by
      simp only [demoCloudSits, List.map_cons, List.map_nil, List.cons_append, List.nil_append]
      have a : [(feb28, run1)] <+: [(feb28, run1), diedCloud] := ⟨[diedCloud], rfl⟩
      have b : [(feb28, run1), diedCloud] <+: doneCloud := ⟨[(mar1, run3)], rfl⟩
      simp [b, a.trans b])
    (by
      intro s _ pre p post e _ _ _ q hq _ _
      have h := hdays
      rw [e] at h
      exact (List.pairwise_append.1 h).2.2 q hq p (by simp))
    (fun p hp => ⟨(cloud_run_day hp).1, (cloud_run_day hp).2.1⟩) (by decide +kernel) demoObjs demoObjs_tidy
    (by
      rintro t (ht | ⟨p, hp, rfl⟩)
      · exact hkey t ht
      · exact hkey _ (cloud_run_day hp).2.2)
    (by
      intro s hs
      simp only [demoCloudSits, List.mem_cons, List.not_mem_nil, or_false] at hs
      rcases hs with rfl | rfl
      · dsimp only; exact k1
      · dsimp only; exact k2)
    k3 Mabel.Blobs.demoLib'
    (by
      intro p hp
      simp only [doneCloud, List.mem_cons, List.not_mem_nil, or_false] at hp
      rcases hp with rfl | rfl | rfl <;> exact Mabel.Blobs.demo_faithful _)
    (fun _ _ _ _ => rfl) History.demoRowsOf cloud_rows_of mar1 []
    (by
      intro s hs l l' k1 k2
      have h1 := hlast l'.length (by unfold listedObjs History.threeDays; rw [k2]; rfl)
      have h2 := hsome s hs l.length (by unfold listedObjs History.threeDays; rw [k1]; rfl)
      omega)
    History.textNumber (fun _ _ x _ y _ h => History.textNumber_inj x y h)
  exact ⟨got, doc, rest, h1, h2, by rw [h3]; decide +kernel, by rw [h4]; decide +kernel⟩

end Mabel.Cloud
