import Verif.Lemmas.CloudSplit
import Verif.Props.CloudOverlap
import Verif.Props.Split

/-!
# Jobs that are split over writers that share a frame, on object storage: C121
-/

namespace Mabel.CloudSplit
open Mabel.Py Mabel.Paths Mabel.Naming Mabel.Spec Mabel.Listing Mabel.ObjectStore Mabel.Cloud Mabel.CloudOverlap
open Mabel.Disk (Bytes Disk blobOps frameFolder)
open Mabel.History (Day Daily folderOf on DaysOf rangeReader blobsOf filesOf)
open Mabel.Blobs (Lib Faithful delivered Item)
open Mabel.CloudStream (Lists byGcs byMinio emptyDisk empty_fresh)
open Mabel.StreamStorage (share)
variable {ρ : Type}

theorem filesOf_length (w : Job) (r : History.Run ρ) : (filesOf w r).length = r.stored.length := by
  rw [History.stored_eq r]
  unfold filesOf
  split <;> simp [blobs_length]

theorem blobOps_ne (cs : List Str) (it : Str × Bytes) : blobOps cs it.1 it.2 ≠ [] := by
  intro h
  have := congrArg List.length h
  rw [Disk.blobOps_length] at this
  simp at this

/-- **C121.**  A job of a day split over any number of batch writers, in processes of their own, that share a frame (the same
second), on Google Cloud Storage or on MinIO: whichever of them stores its next object, in any order, and each may die after
any of them.  When every part has ended with a finalize and at least one had something to store, a reader delivers for the
day exactly the records that were valid for their part, of all of the parts, each once; those of a part are in the order in
which they were appended; the other days are as the earlier runs have left them.  As long as no part is done, every day is as
the earlier runs have left it.

Partial: for the datasets and runs of C97, and no two parts give a blob the same name.  Between the moment the first part is
done and that at which they all are, see `C121_first_marks_fails`. -/
theorem C121_split_job_partial
    -- the dataset, in a bucket and with no dot in its last folder, and the format
    (w : Job) (ls : List (List Piece)) (hw : Daily w ls) (hfmt : w.format ≠ "text".toList)
    (h2 : 2 ≤ ls.length) (hdot : ∀ l ∈ ls.getLast?, ∀ t, Piece.lit t ∈ l → '.' ∉ t)
    -- the reader
    (first last : DateTime) (hf : Day first) (hl : Day last) (hle : first.seconds ≤ last.seconds)
    (days : List DateTime) (hdays : DaysOf first last days)
    (v : Service) (lists : Lists) (hv : (v = gcs ∧ lists = byGcs) ∨ (v = minio ∧ lists = byMinio))
    -- the runs before
    (runs : List (DateTime × History.Run ρ)) (hok : ∀ p ∈ runs, Day p.1 ∧ Proper (on w p.1) p.2)
    (hord : runs.Pairwise (fun a b => a.1 = b.1 → a.2.now.seconds < b.2.now.seconds))
    -- the parts of the job, the day they are for and the time of their frame
    (t n0 : DateTime) (ht : Day t) (parts : List (History.Run ρ)) (hparts : ∀ r ∈ parts, Proper (on w t) r ∧ r.now = n0)
    (hlater : ∀ p ∈ runs, p.1 = t → p.2.now.seconds < n0.seconds)
    -- no two of them give a blob the same name
    (hids : ∀ (i j : Nat) (r r' : History.Run ρ), i ≠ j → parts[i]? = some r → parts[j]? = some r' →
      ∀ p ∈ blobsOf r, ∀ p' ∈ blobsOf r', p.1 ≠ p'.1)
    -- the storage before: nothing in the folders of these days
    (s : List (Obj Bytes)) (hs : ObjectStore.Tidy s)
    (hempty : ∀ u, (u ∈ days ∨ u = t ∨ ∃ p ∈ runs, p.1 = u) → ∀ q ∈ files s, beneath ⟨[], folderOf ls u⟩ q = false)
    -- the libraries; no record is empty (see C70)
    (lib : Lib ρ) (hlib : ∀ p ∈ runs, Faithful p.2.config.codec lib p.2.records)
    (htr : ∀ p ∈ runs, ∀ x ∈ p.2.records, lib.truthy x = true)
    (hlib' : ∀ r ∈ parts, Faithful r.config.codec lib r.records) (htr' : ∀ r ∈ parts, ∀ x ∈ r.records, lib.truthy x = true)
    -- which of the parts stores its next object, and after how many of these steps the reader comes
    (schedule : List Nat) (k : Nat)
    (now : DateTime) (rnd : Str) (prefixes : List Str) (hallow : Reader.allowed prefixes w.dataset = true)
    (hash : Str → Nat) :
    ∃ s1 s', afterDayRuns v w s runs = .ok s1 ∧ storageAt v w (parts.map (fun r => (t, r))) s1 schedule k = .ok s' ∧
      -- when every part has ended with a finalize and stored all it has, and at least one had something to store
      ((∀ (i : Nat) (r : History.Run ρ), parts[i]? = some r → r.ending = .finalized ∧ r.stored.length ≤ (schedule.take k).count i) →
        (∃ r ∈ parts, r.records.filter r.config.valid ≠ []) →
        ∀ rows : DateTime → List ρ, (∀ u ∈ days, u ≠ t → LastOf runs u (rows u)) →
        ∃ X : List ρ, X.Perm (parts.flatMap (fun r => r.records.filter r.config.valid)) ∧
          (∀ r ∈ parts, (r.records.filter r.config.valid).Sublist X) ∧
          ((days.flatMap (fun u => if u = t then X else rows u)) ≠ [] →
            ∃ l, Reader.openReader (rangeReader w first last prefixes) now rnd
                (lists (rangeReader w first last prefixes) now rnd s') = .ok (0, l) ∧
              delivered hash lib {} (blobBytes s') l = (days.flatMap (fun u => if u = t then X else rows u)).map .row) ∧
          ((days.flatMap (fun u => if u = t then X else rows u)) = [] →
            Reader.openReader (rangeReader w first last prefixes) now rnd
              (lists (rangeReader w first last prefixes) now rnd s') = .error .dataNotFound)) ∧
      -- as long as none is done
      ((∀ i, ¬ Done (parts.map (fun r => (t, r))) (schedule.take k) i) →
        ∀ rows : DateTime → List ρ, (∀ u ∈ days, LastOf runs u (rows u)) →
          (days.flatMap rows ≠ [] →
            ∃ l, Reader.openReader (rangeReader w first last prefixes) now rnd
                (lists (rangeReader w first last prefixes) now rnd s') = .ok (0, l) ∧
              delivered hash lib {} (blobBytes s') l = (days.flatMap rows).map .row) ∧
          (days.flatMap rows = [] →
            Reader.openReader (rangeReader w first last prefixes) now rnd
              (lists (rangeReader w first last prefixes) now rnd s') = .error .dataNotFound)) := by
  have hv' : v = gcs ∨ v = minio := by
    rcases hv with ⟨h, -⟩ | ⟨h, -⟩
    · exact Or.inl h
    · exact Or.inr h
  let S : DateTime → Prop := fun u => u ∈ days ∨ u = t ∨ ∃ p ∈ runs, p.1 = u
  have hS : ∀ u, S u → Day u := by
    rintro u (h | rfl | ⟨p, hp, rfl⟩)
    · exact ((hdays.mem u).1 h).1
    · exact ht
    · exact (hok p hp).1
  have hr : ∀ p ∈ runs, S p.1 ∧ Proper (on w p.1) p.2 := fun p hp => ⟨Or.inr (Or.inr ⟨p, hp, rfl⟩), (hok p hp).2⟩
  have hd : ∀ u, S u → History.Fresh (folderOf ls u) emptyDisk := fun u _ => empty_fresh _
  have hsim : Sim ls S s emptyDisk := by
    refine ⟨hs, ?_, nofun⟩
    intro u hu
    rw [List.filter_eq_nil_iff.2]
    · rfl
    · intro q hq
      rw [hempty u hu q hq]
      decide
  obtain ⟨d1, s1, he, hg, hgm, hsim1⟩ := sim_runs hw hS runs hr hord (fun _ => []) emptyDisk
    ⟨by simp, by simp, fun u hu => (hd u hu).holds _, fun u hu => (hd u hu).tidy⟩ (by simp) s hsim
  have hdr : ∀ p ∈ asDisk w ls runs, S p.1 ∧ p.2.OK (on w p.1) := by
    intro p hp
    obtain ⟨p', hp', rfl⟩ := List.mem_map.1 hp
    exact ⟨(hr p' hp').1, onDisk_ok (hr p' hp').2.toOK⟩
  have hordd : (asDisk w ls runs).Pairwise (fun a b => a.1 = b.1 → a.2.now.seconds < b.2.now.seconds) := by
    unfold asDisk
    rw [List.pairwise_map]
    exact hord
  obtain ⟨H', d'', he', hH, hk, -⟩ := History.all_day_runs hw hS (asDisk w ls runs) hdr hordd
    (fun _ => []) emptyDisk ⟨by simp, by simp, fun u hu => (hd u hu).holds _, fun u hu => (hd u hu).tidy⟩ (by simp)
  have hdd : d'' = d1 := by
    have he : History.afterDayRuns w emptyDisk (asDisk w ls runs) = .ok d1 := he
    rw [he] at he'
    exact (Except.ok.inj he').symm
  subst hdd
  obtain ⟨s', steps, d', hst, htaken, hshare, hexec, hlisted, hsim'⟩ := parts_under_way hw hS hk hsim1 (Or.inr (Or.inl rfl)) parts hparts
    (by
      intro b hb
      obtain ⟨hs', e, h⟩ := hH t (Or.inr (Or.inl rfl))
      rw [e, List.nil_append] at hb
      obtain ⟨-, p, hp, hpt, hn, -⟩ := h b hb
      obtain ⟨p', hp', rfl⟩ := List.mem_map.1 hp
      rw [hn]
      exact hlater p' hp' hpt) hids hv' schedule k
  have hst1 : afterDayRuns v w s runs = .ok s1 := by
    rcases hv' with rfl | rfl
    · exact hg
    · exact hgm
  refine ⟨s1, s', hst1, hst, ?_⟩
  obtain ⟨e1, e2, k1, k2, k3, k4⟩ := Split.C99_split_job_partial w ls hw hfmt first last hf hl hle days hdays
    (asDisk w ls runs) (fun p hp => ⟨hS _ (hdr p hp).1, (hdr p hp).2⟩) hordd t n0 ht parts (fun r hr => ⟨(hparts r hr).1.toOK, (hparts r hr).2⟩)
    (by intro p hp; obtain ⟨p', hp', rfl⟩ := List.mem_map.1 hp; exact hlater p' hp') hids emptyDisk (fun u _ => empty_fresh _) lib
    (by intro p hp; obtain ⟨p', hp', rfl⟩ := List.mem_map.1 hp; exact hlib p' hp')
    (by intro p hp; obtain ⟨p', hp', rfl⟩ := List.mem_map.1 hp; exact htr p' hp')
    hlib' htr' steps htaken now rnd prefixes hallow hash
  have : e1 = d'' := by
    have he : History.afterDayRuns w emptyDisk (asDisk w ls runs) = .ok d'' := he
    exact Except.ok.inj (k1.symm.trans he)
  subst this
  have : e2 = d' := Except.ok.inj (k2.symm.trans hexec)
  subst this
  -- what is listed and read
  have hsame : ∀ u ∈ days, Same (diskBlobsAt e2.names ⟨[], folderOf ls u⟩)
      (lists (rangeReader w first last prefixes) now rnd s' ⟨[], folderOf ls u⟩) := by
    intro u hu
    have h1 : Same (diskBlobsAt e2.names ⟨[], folderOf ls u⟩) (diskBlobsAt (files s') ⟨[], folderOf ls u⟩) := by
      unfold diskBlobsAt
      apply Same.map
      intro q
      simp only [List.mem_filter]
      constructor
      · rintro ⟨a, b⟩; exact ⟨(hlisted u (Or.inl hu) q b).2 a, b⟩
      · rintro ⟨a, b⟩; exact ⟨(hlisted u (Or.inl hu) q b).1 a, b⟩
    intro x
    rw [h1 x]
    rcases hv with ⟨-, rfl⟩ | ⟨-, rfl⟩
    · show _ ↔ x ∈ gcsListed s' _
      rw [(CloudStream.gcs_lists hw h2 hdot hdays hsim'.tidy hu).1]
    · show _ ↔ x ∈ minioListed _ now rnd s' _
      rw [(CloudStream.minio_lists hw h2 hdot hdays now rnd hsim'.tidy (rangeReader w first last prefixes) hu).1]
      have hn := hours_some (w := w) hf hl hle prefixes now
      simp only [List.mem_flatten, List.mem_replicate]
      constructor
      · intro h; exact ⟨_, ⟨hn, rfl⟩, h⟩
      · rintro ⟨_, ⟨-, rfl⟩, h⟩; exact h
  obtain ⟨ho1, ho2⟩ := open_same hw hf hl hle hdays hsame now rnd prefixes none
  have hgo : ∀ R : List (Item ρ), (∃ l, Reader.openReader (rangeReader w first last prefixes) now rnd (diskBlobsAt e2.names) = .ok (0, l) ∧
        delivered hash lib {} (Disk.read e2) l = R) →
      ∃ l, Reader.openReader (rangeReader w first last prefixes) now rnd
            (lists (rangeReader w first last prefixes) now rnd s') = .ok (0, l) ∧ delivered hash lib {} (blobBytes s') l = R := by
    rintro R ⟨l, h3, h4⟩
    obtain ⟨l', h5, h6, h7⟩ := ho2 0 l h3
    refine ⟨l', h5, ?_⟩
    rw [← h4]
    refine (delivered_same hash lib {} _ _ ?_ h6 ?_).symm
    · intro hm
      obtain ⟨p, hp⟩ := h7 _ hm
      obtain ⟨q, hq, e⟩ := List.mem_map.1 hp
      obtain ⟨o, ho, e', hsl, -, -⟩ := hsim'.data q (List.mem_filter.1 hq).1
      rcases hsim'.tidy.name o ho with hl | ⟨cs, hn, hc, hj⟩
      · rw [hsl] at hl; cases hl
      · have := (file_eq (hsim'.tidy.bucket o ho) hn hc hj).2
        rw [e', e] at this
        simp at this
    · intro x hx
      obtain ⟨p, hp⟩ := h7 _ hx
      exact (sim_read hsim' p hp).symm
  have hokt := hw.ok t ht.valid
  have hopsof : ∀ (i : Nat) (r : History.Run ρ), parts[i]? = some r →
      (r.ops (on w t) = .ok (share steps i) ↔ r.stored.length ≤ (schedule.take k).count i) := by
    intro i r hp
    obtain ⟨hpr, hn⟩ := hparts r (List.mem_of_getElem? hp)
    rw [History.ops_files (ls := ls) hokt hpr.toOK, hshare i r hp, hn, ← filesOf_length (on w t) r,
      ← flatMap_take_full (fun it : Str × Bytes => blobOps (frameFolder (on w t) ls n0) it.1 it.2) (fun it => blobOps_ne _ it)]
    constructor
    · intro h
      rw [← Except.ok.inj h]
    · intro h
      have := (flatMap_take_full (fun it : Str × Bytes => blobOps (frameFolder (on w t) ls n0) it.1 it.2) (fun it => blobOps_ne _ it) _ _).1 h
      rw [List.take_of_length_le this]
  constructor
  · intro hall hsome rows hrows
    obtain ⟨X, x1, x2, x3, x4⟩ := k3
      (fun i r hp => ⟨(hall i r hp).1, (hopsof i r hp).2 (hall i r hp).2⟩)
      (by
        obtain ⟨r, hm, hne⟩ := hsome
        obtain ⟨i, hi⟩ := List.mem_iff_getElem?.1 hm
        exact ⟨r, hm, (hall i r hi).1, Or.inl hne⟩)
      rows (fun u hu hut => asDisk_lastOf hw hok (hrows u hu hut))
    exact ⟨X, x1, x2, fun h => hgo _ (x3 h), fun h => ho1 _ (x4 h)⟩
  · intro hnone rows hrows
    obtain ⟨x3, x4⟩ := k4
      (by
        rintro i ⟨p, hp, hm, ho⟩
        obtain ⟨e1, e2⟩ := Split.runs_get hp
        rw [e1] at ho
        refine hnone i ⟨p, hp, hm.1, ?_, (hopsof i p.2 e2).1 ho⟩
        rcases (hparts p.2 (List.mem_of_getElem? e2)).1.marked with h | h
        · exact h
        · rcases hm.2 with h' | h'
          · exact h'
          · rw [h] at h'; cases h')
      rows (fun u hu => asDisk_lastOf hw hok (hrows u hu))
    exact ⟨fun h => hgo _ (x3 h), fun h => ho1 _ (x4 h)⟩

/-! ## Concrete cases, and what fails -/

section
open Mabel.History (run1 run3 feb28 feb29 mar1 feb28_day mar1_day daily three_days)
open Mabel.EndToEnd (zJob)
open Mabel.Split (demoParts part2 demo_parts_ok demo_ids failedPart)

/-- The second part begins and ends while the first is under way. -/
def demoSchedule : List Nat := [0, 1, 1, 0, 0]

/-- Non-vacuity: a run for the 28th of February, and a job for the first of March in two parts, the second of which begins
and ends while the first is under way; on both services. -/
example (v : Service) (lists : Lists) (hv : (v = gcs ∧ lists = byGcs) ∨ (v = minio ∧ lists = byMinio)) :
    ∃ s1 s' X l, afterDayRuns v zJob demoObjs [(feb28, run1)] = .ok s1 ∧
      storageAt v zJob (demoParts.map (fun r => (mar1, r))) s1 demoSchedule 5 = .ok s' ∧
      X.Perm [1, 2, 3, 4, 5] ∧ [1, 2, 3].Sublist X ∧ [4, 5].Sublist X ∧
      Reader.openReader (rangeReader zJob feb28 mar1 ["tests/".toList]) ⟨2024, 5, 5, 0, 0, 0⟩ []
        (lists (rangeReader zJob feb28 mar1 ["tests/".toList]) ⟨2024, 5, 5, 0, 0, 0⟩ [] s') = .ok (0, l) ∧
      delivered (fun _ => 0) Mabel.Blobs.demoLib' {} (blobBytes s') l = .row 4 :: X.map .row := by
  obtain ⟨s1, s', h1, h2, h3, -⟩ := C121_split_job_partial zJob demoFolders daily (by decide) (by decide) demo_dot
    feb28 mar1 feb28_day mar1_day (by decide +kernel) [feb28, feb29, mar1] three_days v lists hv [(feb28, run1)]
    (by
      intro p hp
      rw [List.mem_singleton.1 hp]
      exact CloudOverlap.demo_ok (feb28, run1) (by simp [CloudOverlap.demoRuns])) (by simp)
    mar1 run3.now mar1_day demoParts
    (by
      intro r hr
      obtain ⟨a, b⟩ := demo_parts_ok r hr
      have hm : ∀ r ∈ demoParts, r.records.filter r.config.valid ≠ [] := by decide +kernel
      exact ⟨⟨a, Or.inl (hm r hr)⟩, b⟩)
    (by
      intro p hp e
      rw [List.mem_singleton.1 hp] at e
      exact absurd e (by decide +kernel)) demo_ids demoObjs demoObjs_tidy
    (by
      rintro u (hu | rfl | ⟨p, hp, rfl⟩)
      · exact CloudOverlap.demo_empty u (Or.inl hu)
      · exact CloudOverlap.demo_empty mar1 (Or.inl (by simp))
      · rw [List.mem_singleton.1 hp]
        exact CloudOverlap.demo_empty feb28 (Or.inl (by simp)))
    Mabel.Blobs.demoLib'
    (by
      intro p hp
      rw [List.mem_singleton.1 hp]
      exact Mabel.Blobs.demo_faithful _)
    (fun _ _ _ _ => rfl)
    (by
      intro p hp
      simp only [demoParts, List.mem_cons, List.not_mem_nil, or_false] at hp
      rcases hp with rfl | rfl <;> exact Mabel.Blobs.demo_faithful _)
    (fun _ _ _ _ => rfl) demoSchedule 5 ⟨2024, 5, 5, 0, 0, 0⟩ [] ["tests/".toList] (by decide) (fun _ => 0)
  obtain ⟨X, k1, k2, k3, -⟩ := h3
    (by
      intro i r hp
      match i, hp with
      | 0, hp => cases hp; exact ⟨rfl, by decide +kernel⟩
      | 1, hp => cases hp; exact ⟨rfl, by decide +kernel⟩)
    ⟨run3, by simp [demoParts], by decide⟩ (fun u => if u = feb28 then [4] else []) (by
    intro u hu hne
    simp only [List.mem_cons, List.not_mem_nil, or_false] at hu
    rcases hu with rfl | rfl | rfl
    · exact Or.inl ⟨[], run1, [], rfl, ⟨rfl, by decide, by decide +kernel⟩, by simp, by decide⟩
    · refine Or.inr ⟨?_, by rw [if_neg (by decide +kernel)]⟩
      intro p hp e
      rw [List.mem_singleton.1 hp] at e
      exact absurd e (by decide +kernel)
    · exact absurd rfl hne)
  have e1 : ([feb28, feb29, mar1].flatMap (fun u => if u = mar1 then X else if u = feb28 then [4] else [])) = 4 :: X := by
    have n1 : feb28 ≠ mar1 := by decide +kernel
    have n2 : feb29 ≠ mar1 := by decide +kernel
    have n3 : feb29 ≠ feb28 := by decide +kernel
    simp [n1, n2, n3]
  rw [e1] at k3
  obtain ⟨l, k4, k5⟩ := k3 (by simp)
  exact ⟨s1, s', X, l, h1, h2, k1, k2 run3 (by simp [demoParts]), k2 part2 (by simp [demoParts]), k4, k5⟩

/-- What a reader delivers of parts of a job after this schedule. -/
def readParts (v : Service) (lists : Lists) (parts : List (History.Run (Fin 10))) (schedule : List Nat) :
    Option (Option (List (Item (Fin 10)))) :=
  (storageAt v zJob (parts.map (fun r => (mar1, r))) [] schedule schedule.length).toOption.map (fun s =>
    (Reader.openReader (rangeReader zJob mar1 mar1 ["tests/".toList]) ⟨2024, 5, 5, 0, 0, 0⟩ []
      (lists (rangeReader zJob mar1 mar1 ["tests/".toList]) ⟨2024, 5, 5, 0, 0, 0⟩ [] s)).toOption.map (fun x =>
        delivered (fun _ => 0) Mabel.Blobs.demoLib' {} (blobBytes s) x.2))

/-- **The first part that ends marks the frame as complete for all of them**, on both services: the first part of the job has
stored one of its two blobs when it dies (or when the reader comes), and is not done; the reader delivers what that blob
holds with the records of the part that has ended, and nothing tells it that the rest is missing. -/
theorem C121_first_marks_fails :
    ¬ Done (demoParts.map (fun r => (mar1, r))) [1, 1, 0] 0 ∧
    readParts gcs byGcs demoParts [1, 1, 0] = some (some [.row 1, .row 2, .row 4, .row 5]) ∧
    readParts minio byMinio demoParts [1, 1, 0] = some (some [.row 1, .row 2, .row 4, .row 5]) := by
  refine ⟨?_, by decide +kernel, by decide +kernel⟩
  rintro ⟨p, hp, -, -, h⟩
  cases hp
  exact absurd h (by decide +kernel)

/-- **A part that reports a failure is read with the others**, on both services. -/
theorem C121_failed_part_fails :
    failedPart.ending = .failed [] ∧
    readParts gcs byGcs [run3, failedPart] [1, 0, 0, 0] = some (some [.row 1, .row 2, .row 3, .row 4, .row 5]) ∧
    readParts minio byMinio [run3, failedPart] [1, 0, 0, 0] = some (some [.row 1, .row 2, .row 3, .row 4, .row 5]) :=
  ⟨rfl, by decide +kernel, by decide +kernel⟩

end

end Mabel.CloudSplit
