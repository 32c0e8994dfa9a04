import Verif.Props.Disk

/-!
# C114 A computer that loses power: what is seen of a run that was under way

The writer for disks never asks for what it has written to be flushed (disk_writer.py:27-28 closes the file only), so
after a loss of power any of the files that a run has made may be missing, and those that are there may hold anything.
-/

namespace Mabel.Disk
open Mabel.Py Mabel.Paths Mabel.Naming Mabel.Listing Mabel.Spec

/-- What may be left: every file that was there before the run, as it was, and any of those the run had made, with any
contents. -/
structure Remains (before full after : Disk) : Prop where
  kept : ∀ q ∈ before.names, q ∈ after.names
  same : ∀ x bytes, read before x = .ok bytes → read after x = .ok bytes
  only : ∀ q ∈ after.names, q ∈ full.names

/-- The run as it is left. -/
def leftOf (w : Job) (ls : List (List Piece)) (now : DateTime) (blobs : List (Str × Bytes)) (d : Disk) : Batch :=
  ⟨now, (blobs.filter fun b => d.names.contains (at_ (frameFolder w ls now) (b.1 ++ extension w.format, b.2))).map Prod.fst,
    d.names.contains (at_ (frameFolder w ls now) ("frame.complete".toList, [])), false⟩

theorem leftOf_hex {w : Job} {ls : List (List Piece)} {now : DateTime} {blobs : List (Str × Bytes)} {d : Disk}
    (hid : ∀ b ∈ blobs, HexId b.1 ∧ b.1 ≠ []) : ∀ i ∈ (leftOf w ls now blobs d).ids, HexId i := by
  intro i hi
  obtain ⟨b, hb, rfl⟩ := List.mem_map.1 hi
  exact (hid b (List.mem_of_mem_filter hb)).1

theorem leftOf_framed {w : Job} {ls : List (List Piece)} {now : DateTime} {blobs : List (Str × Bytes)} {d : Disk} (x : Framed) :
    x ∈ (leftOf w ls now blobs d).framed w ls ↔
      ∃ it ∈ runFiles w blobs, at_ (frameFolder w ls now) it ∈ d.names ∧ x = ⟨w.base ls, asAtName now, it.1⟩ := by
  unfold runFiles
  simp only [leftOf, Batch.framed, Bool.false_eq_true, if_false, List.append_nil, List.mem_append, List.mem_map, List.mem_filter,
    List.contains_iff_mem, List.mem_singleton]
  constructor
  · rintro (⟨i, ⟨b, ⟨hb, hd⟩, rfl⟩, rfl⟩ | hx)
    · exact ⟨_, Or.inl ⟨b, hb, rfl⟩, hd, rfl⟩
    · split at hx
      · rename_i hm
        refine ⟨("frame.complete".toList, []), Or.inr rfl, by simpa using hm, by simpa using hx⟩
      · cases hx
  · rintro ⟨it, ⟨b, hb, rfl⟩ | rfl, hd, rfl⟩
    · exact Or.inl ⟨b.1, ⟨b, ⟨hb, hd⟩, rfl⟩, rfl⟩
    · right
      rw [if_pos (by simpa using hd)]
      simp

theorem at_left {w : Job} {ls : List (List Piece)} (h : w.OK ls) {now : DateTime} (hv : now.valid = true)
    {blobs : List (Str × Bytes)} (hid : ∀ b ∈ blobs, HexId b.1 ∧ b.1 ≠ []) {it : Str × Bytes} (hit : it ∈ runFiles w blobs) :
    at_ (frameFolder w ls now) it = Posix.parse (Framed.path ⟨w.base ls, asAtName now, it.1⟩) :=
  at_soFar h hv hid (mem_runFiles_soFar hit)

/-- What is left is a history with one more run. -/
theorem left_holds (w : Job) (ls : List (List Piece)) (h : w.OK ls) (hs : List Batch)
    (hv : ∀ b ∈ hs, b.now.valid = true) (hi : ∀ b ∈ hs, ∀ i ∈ b.ids, HexId i) (d : Disk)
    (hd : Holds w hs d.names ⟨[], ls.map (filled w.date)⟩)
    (now : DateTime) (hnv : now.valid = true) (hnew : ∀ b ∈ hs, b.now.seconds < now.seconds)
    (blobs : List (Str × Bytes)) (hid : ∀ b ∈ blobs, HexId b.1 ∧ b.1 ≠ []) (hnd : (blobs.map Prod.fst).Nodup)
    (hcl : Clear d (frameFolder w ls now)) (k : Nat) {full left : Disk} (hf : stopped d w now blobs k = .ok full)
    (hr : Remains d full left) :
    Holds w (hs ++ [leftOf w ls now blobs left]) left.names ⟨[], ls.map (filled w.date)⟩ := by
  obtain ⟨j, d1, he, hh, -⟩ := stopped_holds w ls h hs hv hi d hd now hnv hnew blobs hid hnd hcl k
  rw [hf] at he
  obtain rfl := Except.ok.inj he
  refine ⟨fun q hq => hh.normal q (hr.only q hq), fun q => ⟨?_, ?_⟩⟩
  · rintro ⟨hq, hb⟩
    obtain ⟨b, hbm, hrest⟩ := (hh.beneath_iff q).1 ⟨hr.only q hq, hb⟩
    rcases List.mem_append.1 hbm with hbm | hbm
    · exact ⟨b, by simp [hbm], hrest⟩
    · rw [List.mem_singleton.1 hbm] at hrest
      obtain ⟨x, hx, rfl⟩ := (paths_eq h (soFar now blobs j) hnv _).1 hrest
      obtain ⟨it, hit, rfl⟩ := (soFar_framed (ls := ls) (now := now) (j := j) x).1 hx
      have hit := List.mem_of_mem_take hit
      refine ⟨_, List.mem_append_right _ (List.mem_singleton.2 rfl), (paths_eq h (leftOf w ls now blobs left) hnv _).2 ?_⟩
      refine ⟨_, (leftOf_framed _).2 ⟨it, hit, ?_, rfl⟩, rfl⟩
      rw [at_left h hnv hid hit]
      exact hq
  · rintro ⟨b, hbm, hrest⟩
    rcases List.mem_append.1 hbm with hbm | hbm
    · obtain ⟨hq, hb⟩ := (hd.beneath_iff q).2 ⟨b, hbm, hrest⟩
      exact ⟨hr.kept q hq, hb⟩
    · rw [List.mem_singleton.1 hbm] at hrest
      obtain ⟨x, hx, rfl⟩ := (paths_eq h (leftOf w ls now blobs left) hnv _).1 hrest
      obtain ⟨it, hit, hin, rfl⟩ := (leftOf_framed x).1 hx
      rw [← at_left h hnv hid hit]
      exact ⟨hin, beneath_at w ls now it⟩

/-- **C114** (partial: if the marker of the run is lost or had not been written): a disk holds the runs of a history, and
a new batch run, later than all of them, has taken any number of its steps when power is lost; any of its blobs may be
missing, and the others may hold anything.  A reader lists exactly the blobs it listed before the run, with the same
contents. -/
theorem C114_unmarked_partial (w : Job) (ls : List (List Piece)) (h : w.OK ls) (hb : PlainBase (w.base ls))
    (hs : List Batch) (hv : ∀ b ∈ hs, b.now.valid = true) (hi : ∀ b ∈ hs, ∀ i ∈ b.ids, HexId i)
    (d : Disk) (rnd : Str) (hd : Holds w hs d.names (cyclePath (readerDataset w.dataset w.partitions) rnd w.date))
    (now : DateTime) (hnv : now.valid = true) (hnew : ∀ b ∈ hs, b.now.seconds < now.seconds)
    (blobs : List (Str × Bytes)) (hid : ∀ b ∈ blobs, HexId b.1 ∧ b.1 ≠ []) (hnd : (blobs.map Prod.fst).Nodup)
    (hcl : Clear d (frameFolder w ls now)) (k : Nat) {full left : Disk} (hf : stopped d w now blobs k = .ok full)
    (hr : Remains d full left)
    (hm : ∀ bytes, read left (Framed.path ⟨w.base ls, asAtName now, "frame.complete".toList⟩) ≠ .ok bytes)
    (dates : List DateTime) (hdv : ∀ t ∈ dates, t.valid = true) (hmem : w.date ∈ dates) :
    ∃ before after,
      listBlobs (readerDataset w.dataset w.partitions) rnd none (diskBlobsAt d.names) dates = .ok before ∧
      listBlobs (readerDataset w.dataset w.partitions) rnd none (diskBlobsAt left.names) dates = .ok after ∧
      (∀ x, beneath (cyclePath (readerDataset w.dataset w.partitions) rnd w.date) (Posix.parse x) = true →
          (x ∈ after ↔ x ∈ before)) ∧
      ∀ x bytes, read d x = .ok bytes → read left x = .ok bytes := by
  have hd0 := hd
  rw [cyclePath_eq h rnd] at hd
  have hh := left_holds w ls h hs hv hi d hd now hnv hnew blobs hid hnd hcl k hf hr
  rw [← cyclePath_eq h rnd] at hh
  have hv' : ∀ b ∈ hs ++ [leftOf w ls now blobs left], b.now.valid = true := by
    intro b hbm
    rcases List.mem_append.1 hbm with hbm | hbm
    · exact hv b hbm
    · rw [List.mem_singleton.1 hbm]; exact hnv
  have hi' : ∀ b ∈ hs ++ [leftOf w ls now blobs left], ∀ i ∈ b.ids, HexId i := by
    intro b hbm
    rcases List.mem_append.1 hbm with hbm | hbm
    · exact hi b hbm
    · rw [List.mem_singleton.1 hbm]; exact leftOf_hex hid
  obtain ⟨before, hbf, hbx⟩ := C22_completed_is_read w ls h hb hs hv hi d.names rnd hd0 dates hdv hmem
  obtain ⟨after, haf, hax⟩ := C22_completed_is_read w ls h hb _ hv' hi' left.names rnd hh dates hdv hmem
  refine ⟨before, after, hbf, haf, ?_, hr.same⟩
  have hc : (leftOf w ls now blobs left).complete = false := by
    show left.names.contains _ = false
    rw [at_left h hnv hid (it := ("frame.complete".toList, [])) (by simp [runFiles])]
    by_contra hcon
    refine hm (left.content (Posix.parse (Framed.path ⟨w.base ls, asAtName now, "frame.complete".toList⟩))) ?_
    unfold read
    rw [if_pos (by simpa using hcon)]
  intro x hx
  rw [hax x hx, hbx x hx]
  constructor
  · rintro ⟨t, ht, b, hbm, e, i, him, hbb⟩
    have ht := (latest_unfinished hc rfl t).1 ht
    rcases List.mem_append.1 hbm with hbm | hbm
    · exact ⟨t, ht, b, hbm, e, i, him, hbb⟩
    · exfalso
      rw [List.mem_singleton.1 hbm] at e
      have e : now = t := e
      obtain ⟨c, hcm, e2, _⟩ := ht.complete
      have := hnew c hcm
      rw [e2, ← e] at this
      omega
  · rintro ⟨t, ht, b, hbm, e, i, him, hbb⟩
    exact ⟨t, (latest_unfinished hc rfl t).2 ht, b, by simp [hbm], e, i, him, hbb⟩

/-- **C114**: if the marker is left, a reader lists exactly those blobs of the run that are left, whatever they hold, and
nothing of the runs before. -/
theorem C114_marked (w : Job) (ls : List (List Piece)) (h : w.OK ls) (hb : PlainBase (w.base ls))
    (hs : List Batch) (hv : ∀ b ∈ hs, b.now.valid = true) (hi : ∀ b ∈ hs, ∀ i ∈ b.ids, HexId i)
    (d : Disk) (rnd : Str) (hd : Holds w hs d.names (cyclePath (readerDataset w.dataset w.partitions) rnd w.date))
    (now : DateTime) (hnv : now.valid = true) (hnew : ∀ b ∈ hs, b.now.seconds < now.seconds)
    (blobs : List (Str × Bytes)) (hid : ∀ b ∈ blobs, HexId b.1 ∧ b.1 ≠ []) (hnd : (blobs.map Prod.fst).Nodup)
    (hcl : Clear d (frameFolder w ls now)) (k : Nat) {full left : Disk} (hf : stopped d w now blobs k = .ok full)
    (hr : Remains d full left) {bytes : Bytes}
    (hm : read left (Framed.path ⟨w.base ls, asAtName now, "frame.complete".toList⟩) = .ok bytes)
    (dates : List DateTime) (hdv : ∀ t ∈ dates, t.valid = true) (hmem : w.date ∈ dates) :
    ∃ after,
      listBlobs (readerDataset w.dataset w.partitions) rnd none (diskBlobsAt left.names) dates = .ok after ∧
      ∀ x, beneath (cyclePath (readerDataset w.dataset w.partitions) rnd w.date) (Posix.parse x) = true →
          (x ∈ after ↔ (∃ b ∈ blobs, batchBlob w.dataset w.partitions (asAtName now) w.date w.rnd w.format b.1 = .ok x) ∧
            ∃ bytes, read left x = .ok bytes) := by
  have hd0 := hd
  rw [cyclePath_eq h rnd] at hd
  have hh := left_holds w ls h hs hv hi d hd now hnv hnew blobs hid hnd hcl k hf hr
  rw [← cyclePath_eq h rnd] at hh
  have hv' : ∀ b ∈ hs ++ [leftOf w ls now blobs left], b.now.valid = true := by
    intro b hbm
    rcases List.mem_append.1 hbm with hbm | hbm
    · exact hv b hbm
    · rw [List.mem_singleton.1 hbm]; exact hnv
  have hi' : ∀ b ∈ hs ++ [leftOf w ls now blobs left], ∀ i ∈ b.ids, HexId i := by
    intro b hbm
    rcases List.mem_append.1 hbm with hbm | hbm
    · exact hi b hbm
    · rw [List.mem_singleton.1 hbm]; exact leftOf_hex hid
  obtain ⟨after, haf, hax⟩ := C22_completed_is_read w ls h hb _ hv' hi' left.names rnd hh dates hdv hmem
  refine ⟨after, haf, ?_⟩
  have hread : ∀ x, (∃ bytes, read left x = .ok bytes) ↔ Posix.parse x ∈ left.names := by
    intro x
    unfold read
    by_cases hx : Posix.parse x ∈ left.names
    · simp [hx]
    · simp [hx]
  have hc : (leftOf w ls now blobs left).complete = true := by
    show left.names.contains _ = true
    rw [at_left h hnv hid (it := ("frame.complete".toList, [])) (by simp [runFiles]), List.contains_iff_mem]
    exact (hread _).1 ⟨bytes, hm⟩
  have hname : ∀ b ∈ blobs, Posix.parse (Framed.path ⟨w.base ls, asAtName now, b.1 ++ extension w.format⟩) =
      at_ (frameFolder w ls now) (b.1 ++ extension w.format, b.2) := by
    intro b hbm
    exact (at_left h hnv hid (it := (b.1 ++ extension w.format, b.2)) (List.mem_append_left _ (List.mem_map.2 ⟨b, hbm, rfl⟩))).symm
  intro x hx
  rw [hax x hx]
  constructor
  · rintro ⟨t, ht, b, hbm, e, i, him, hbb⟩
    have ht : t = now := (latest_finished hc rfl hnew t).1 ht
    rcases List.mem_append.1 hbm with hbm | hbm
    · have := hnew b hbm
      rw [e, ht] at this
      omega
    · rw [List.mem_singleton.1 hbm] at him hbb
      obtain ⟨b', hb', rfl⟩ := List.mem_map.1 him
      have hb1 := List.mem_of_mem_filter hb'
      have hb2 := List.of_mem_filter hb'
      have hbb : batchBlob w.dataset w.partitions (asAtName now) w.date w.rnd w.format b'.1 = .ok x := hbb
      refine ⟨⟨b', hb1, hbb⟩, (hread x).2 ?_⟩
      rw [batchBlob_eq h hnv b'.1] at hbb
      rw [← Except.ok.inj hbb, hname b' hb1]
      simpa using hb2
  · rintro ⟨⟨b, hbm, hbb⟩, hin⟩
    refine ⟨now, (latest_finished hc rfl hnew now).2 rfl, leftOf w ls now blobs left, by simp, rfl, b.1, ?_, hbb⟩
    refine List.mem_map.2 ⟨b, List.mem_filter.2 ⟨hbm, ?_⟩, rfl⟩
    have hin := (hread x).1 hin
    rw [batchBlob_eq h hnv b.1] at hbb
    rw [← Except.ok.inj hbb, hname b hbm] at hin
    simpa using hin

/-! ## What is not so -/

/-- What is left of the demonstration run: the marker, and the blob of three bytes as an empty file. -/
def afterLoss (full : Disk) : Disk :=
  ⟨full.dirs, full.names.filter (fun q => demoDisk.names.contains q || q.comps.getLast? = some "frame.complete".toList ||
      q.comps.getLast? = some "ba-1-1.jsonl.parquet".toList),
    fun q => if demoDisk.names.contains q then full.content q else []⟩

/-- **C114** (fails): a run of three blobs has come to its end, and power is lost.  The marker is left and one of the
blobs, empty: a reader lists that blob alone, and nothing of the two blobs of the finished run before. -/
theorem C114_power_loss_fails :
    ∃ full, stopped demoDisk demoJob ⟨2024, 3, 2, 1, 0, 0⟩ demoBlobs 1000 = .ok full ∧
      Remains demoDisk full (afterLoss full) ∧
      (∃ x, cycleBlobs none (diskBlobsAt (afterLoss full).names
          (cyclePath (readerDataset demoJob.dataset demoJob.partitions) [] demoJob.date)) = .ok [x] ∧
        read full x = .ok [1, 2, 3] ∧ read (afterLoss full) x = .ok []) ∧
      ∃ y z, cycleBlobs none (diskBlobsAt demoDisk.names
        (cyclePath (readerDataset demoJob.dataset demoJob.partitions) [] demoJob.date)) = .ok [y, z] := by
  let x := "tests/data/year_2024/month_02/day_29/as_at_20240302-010000/ba-1-1.jsonl.parquet".toList
  have key : (stopped demoDisk demoJob ⟨2024, 3, 2, 1, 0, 0⟩ demoBlobs 1000).toOption.map (fun full =>
      decide ((∀ q ∈ demoDisk.names, q ∈ full.names ∧ full.content q = demoDisk.content q) ∧
        (cycleBlobs none (diskBlobsAt (afterLoss full).names
          (cyclePath (readerDataset demoJob.dataset demoJob.partitions) [] demoJob.date))).toOption = some [x] ∧
        (read full x).toOption = some [1, 2, 3] ∧ (read (afterLoss full) x).toOption = some [])) = some true := by
    decide +kernel
  have hof : ∀ {α : Type} {r : Except Err α} {a : α}, r.toOption = some a → r = .ok a := by
    intro α r a h
    cases r with
    | error e => cases h
    | ok b => simpa [Except.toOption] using h
  cases hst : stopped demoDisk demoJob ⟨2024, 3, 2, 1, 0, 0⟩ demoBlobs 1000 with
  | error e => rw [hst] at key; cases key
  | ok full =>
    rw [hst] at key
    obtain ⟨k1, k2, k3, k4⟩ := of_decide_eq_true (Option.some.inj key)
    have hkept : ∀ q ∈ demoDisk.names, q ∈ (afterLoss full).names := by
      intro q hq
      exact List.mem_filter.2 ⟨(k1 q hq).1, by simp [hq]⟩
    refine ⟨full, rfl, ⟨hkept, ?_, fun q hq => List.mem_of_mem_filter hq⟩, ⟨x, hof k2, hof k3, hof k4⟩, ?_⟩
    · intro y bytes hy
      unfold read at hy ⊢
      by_cases hin : Posix.parse y ∈ demoDisk.names
      · rw [if_pos (by simpa using hin)] at hy
        rw [if_pos (by simpa using hkept _ hin), ← hy]
        show Except.ok (if demoDisk.names.contains (Posix.parse y) then full.content _ else []) = _
        rw [if_pos (by simpa using hin), (k1 _ hin).2]
      · rw [if_neg (by simpa using hin)] at hy
        cases hy
    · exact ⟨"tests/data/year_2024/month_02/day_29/as_at_20240301-113000/ab-1-1.jsonl.parquet".toList,
        "tests/data/year_2024/month_02/day_29/as_at_20240301-113000/ac-1-1.jsonl.parquet".toList, hof (by decide +kernel)⟩

/-- A case for `C114_marked`, and one for `C114_unmarked_partial`. -/
example : ∃ full, stopped demoDisk demoJob ⟨2024, 3, 2, 1, 0, 0⟩ demoBlobs 1000 = .ok full ∧ Remains demoDisk full (afterLoss full) ∧
    ∃ bytes, read (afterLoss full) (Framed.path ⟨demoJob.base demoFolders, asAtName ⟨2024, 3, 2, 1, 0, 0⟩, "frame.complete".toList⟩) = .ok bytes := by
  obtain ⟨full, h1, h2, -⟩ := C114_power_loss_fails
  refine ⟨full, h1, h2, ?_⟩
  have key : (stopped demoDisk demoJob ⟨2024, 3, 2, 1, 0, 0⟩ demoBlobs 1000).toOption.map (fun full =>
      (read (afterLoss full) (Framed.path ⟨demoJob.base demoFolders, asAtName ⟨2024, 3, 2, 1, 0, 0⟩, "frame.complete".toList⟩)).toOption.isSome)
      = some true := by decide +kernel
  rw [h1] at key
  have key := Option.some.inj key
  simp only at key
  cases hr : read (afterLoss full) (Framed.path ⟨demoJob.base demoFolders, asAtName ⟨2024, 3, 2, 1, 0, 0⟩, "frame.complete".toList⟩) with
  | error e => rw [hr] at key; cases key
  | ok b => exact ⟨b, rfl⟩

example : ∃ full, stopped demoDisk demoJob ⟨2024, 3, 2, 1, 0, 0⟩ demoBlobs 25 = .ok full ∧ Remains demoDisk full demoDisk ∧
    ∀ bytes, read demoDisk (Framed.path ⟨demoJob.base demoFolders, asAtName ⟨2024, 3, 2, 1, 0, 0⟩, "frame.complete".toList⟩) ≠ .ok bytes := by
  have key : (stopped demoDisk demoJob ⟨2024, 3, 2, 1, 0, 0⟩ demoBlobs 25).toOption.map (fun full =>
      decide (∀ q ∈ demoDisk.names, q ∈ full.names)) = some true := by decide +kernel
  cases hst : stopped demoDisk demoJob ⟨2024, 3, 2, 1, 0, 0⟩ demoBlobs 25 with
  | error e => rw [hst] at key; cases key
  | ok full =>
    rw [hst] at key
    refine ⟨full, rfl, ⟨fun _ h => h, fun _ _ h => h, of_decide_eq_true (Option.some.inj key)⟩, ?_⟩
    intro bytes hb
    have : (read demoDisk (Framed.path ⟨demoJob.base demoFolders, asAtName ⟨2024, 3, 2, 1, 0, 0⟩, "frame.complete".toList⟩)).toOption = none := by
      decide +kernel
    rw [hb] at this
    cases this

end Mabel.Disk
