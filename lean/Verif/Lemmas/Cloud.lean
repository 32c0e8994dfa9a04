import Verif.Spec.Cloud
import Verif.Props.Days
import Verif.Props.ObjectStore

/-!
# Runs on object storage and on a disk side by side
-/

namespace Mabel.Cloud
open Mabel.Py Mabel.Paths Mabel.Naming Mabel.Spec Mabel.Listing Mabel.ObjectStore
open Mabel.History (Day Daily folderOf on blobsOf Kept)
open Mabel.Disk (Disk Op exec read blobOps at_ addName Room commit_run exec_append runFiles frameFolder)
variable {ρ : Type}

/-! ## Storing -/

theorem storeAll_data (v : Service) (ids : Nat → Str) (n : Nat) (i : Inner) (s : List (Obj Disk.Bytes)) (bs : List Disk.Bytes)
    (rest : List Writer.Stored) :
    storeAll v ids n i s (bs.map .data ++ rest)
      = storeAll v ids (n + bs.length) (commits v.commit i s ((bs.zipIdx n).map (fun p => (ids p.2, p.1)))).1
          (commits v.commit i s ((bs.zipIdx n).map (fun p => (ids p.2, p.1)))).2 rest := by
  induction bs generalizing n i s with
  | nil => rfl
  | cons b bs ih =>
    rw [List.map_cons, List.cons_append, storeAll, ih, List.zipIdx_cons, List.map_cons, commits]
    rw [show n + 1 + bs.length = n + (b :: bs).length by simp; omega]

theorem take_stored (bs : List Disk.Bytes) (m : Prop) [Decidable m] (k : Nat) :
    ((bs.map Writer.Stored.data ++ (if m then [Writer.Stored.complete] else [])).take k)
      = (bs.take k).map Writer.Stored.data ++ (if m ∧ bs.length < k then [Writer.Stored.complete] else []) := by
  rw [List.take_append, ← List.map_take, List.length_map]
  congr 1
  by_cases hm : m
  · by_cases hk : bs.length < k
    · obtain ⟨m, hm'⟩ : ∃ m, k - bs.length = m + 1 := ⟨k - bs.length - 1, by omega⟩
      rw [hm']; simp [hm, hk]
    · rw [Nat.sub_eq_zero_of_le (by omega)]; simp [hk]
  · simp [hm]

theorem zipIdx_take (bs : List Disk.Bytes) (k n : Nat) : (bs.take k).zipIdx n = (bs.zipIdx n).take k := by
  induction bs generalizing k n with
  | nil => simp
  | cons b bs ih =>
    cases k with
    | zero => rfl
    | succ k => rw [List.take_succ_cons, List.zipIdx_cons, List.zipIdx_cons, List.take_succ_cons, ih]

/-- The part of a run that was stored. -/
noncomputable def part (r : History.Run ρ) : ObjectStore.Run Disk.Bytes :=
  ⟨r.now, (blobsOf r).take r.stop, open Classical in decide (r.Marks ∧ (blobsOf r).length < r.stop)⟩

theorem part_complete (r : History.Run ρ) : (part r).complete = true ↔ r.Marks ∧ (blobsOf r).length < r.stop := by
  classical
  exact decide_eq_true_iff

theorem blobs_length (r : History.Run ρ) : (blobsOf r).length = (Writer.Spec.dataBlobs r.stored).length := by
  simp [blobsOf]

theorem blobs_ne {r : History.Run ρ} (he : r.ending = .finalized) (hne : r.records.filter r.config.valid ≠ []) :
    blobsOf r ≠ [] := by
  intro e
  obtain ⟨⟨groups, hg1, hg2, -⟩, -⟩ := Writer.C01_conservation r.config (r.records.map .append) false
  have h0 : EndToEnd.writtenBlobs r.config (r.records.map .append) = [] := by
    rw [← List.length_eq_zero_iff, ← History.dataBlobs_finalized he, ← blobs_length, e]; rfl
  unfold EndToEnd.writtenBlobs at h0
  rw [hg1] at h0
  have h1 : groups = [] := by simpa using h0
  rw [h1, History.accepted_appends] at hg2
  exact hne hg2.symm

theorem storeAll_batch (v : Service) (r : History.Run ρ) (i : Inner) (s : List (Obj Disk.Bytes)) :
    storeAll v r.ids 0 i s (r.stored.take r.stop)
      = batch v.commit i s (part r).blobs (part r).complete [] := by
  classical
  rw [History.stored_eq r, take_stored, storeAll_data]
  unfold batch
  have e : ((((Writer.Spec.dataBlobs r.stored).take r.stop).zipIdx 0).map (fun p => (r.ids p.2, p.1)))
      = (part r).blobs := by
    rw [zipIdx_take, List.map_take]
    rfl
  rw [e]
  simp only [part, blobs_length]
  by_cases h : r.Marks ∧ (Writer.Spec.dataBlobs r.stored).length < r.stop
  · simp [h, storeAll]
  · simp [h, storeAll]

theorem afterRun_eq {w : Job} {ls : List (List Piece)} (h : w.OK ls) (s : List (Obj Disk.Bytes)) (r : History.Run ρ)
    (hr : Proper w r) :
    afterRun gcs w s r = .ok (puts s (objsOf w ls [] (part r))) ∧
    afterRun minio w s r = .ok (puts s (objsOf w ls [] (part r))) := by
  have hv := hr.now
  have hbl : (part r).complete = true → (part r).blobs ≠ [] := by
    intro hc e
    obtain ⟨⟨hf, hm⟩, hc⟩ : r.Marks ∧ (blobsOf r).length < r.stop := (part_complete r).1 hc
    have hne : r.records.filter r.config.valid ≠ [] := by
      rcases hr.marked with h1 | h1
      · exact h1
      · rcases hm with h2 | h2
        · exact h2
        · rw [h1] at h2; cases h2
    have e : (blobsOf r).take r.stop = [] := e
    rw [List.take_of_length_le (by omega)] at e
    exact blobs_ne hf hne e
  have hm := runOn_eq (ls := ls) h ([] : Disk.Bytes) s (part r) hv
  constructor
  · rw [← hm]
    unfold afterRun runOn
    show (match frameId w.dataset w.partitions (asAtName r.now) w.date w.rnd with
      | .error e => _ | .ok frame => _) = (match frameId w.dataset w.partitions (asAtName r.now) w.date w.rnd with
      | .error e => _ | .ok frame => _)
    cases frameId w.dataset w.partitions (asAtName r.now) w.date w.rnd with
    | error e => rfl
    | ok frame =>
      simp only
      rw [← gcsBatch_eq _ _ _ _ _ _ hbl]
      unfold gcsBatch
      simp only [gcs]
      cases Inner.make frame w.format with
      | error e => rfl
      | ok i => simp only [Except.map]; exact congrArg Except.ok (storeAll_batch gcs r i s)
  · rw [← hm]
    unfold afterRun runOn
    show (match frameId w.dataset w.partitions (asAtName r.now) w.date w.rnd with
      | .error e => _ | .ok frame => _) = (match frameId w.dataset w.partitions (asAtName r.now) w.date w.rnd with
      | .error e => _ | .ok frame => _)
    cases frameId w.dataset w.partitions (asAtName r.now) w.date w.rnd with
    | error e => rfl
    | ok frame =>
      simp only
      unfold minioBatch
      simp only [minio]
      cases minioMake frame w.format with
      | error e => rfl
      | ok i => simp only [Except.map]; exact congrArg Except.ok (storeAll_batch minio r i s)

/-! ## The same on a disk -/

/-- The run that is stopped on the disk when the same files are there. -/
noncomputable def onDisk (w : Job) (ls : List (List Piece)) (r : History.Run ρ) : History.Run ρ :=
  { r with stop := (((History.filesOf w r).take r.stop).flatMap
      (fun it => blobOps (frameFolder w ls r.now) it.1 it.2)).length }

theorem flatMap_take {α β : Type} (f : α → List β) (l : List α) (k : Nat) :
    (l.flatMap f).take ((l.take k).flatMap f).length = (l.take k).flatMap f := by
  conv_lhs => rw [← List.take_append_drop k l]
  rw [List.flatMap_append, List.take_append_of_le_length (by simp), List.take_of_length_le]
  simp

theorem flatMap_take_full {α β : Type} (f : α → List β) (hf : ∀ a, f a ≠ []) (l : List α) (k : Nat) :
    (l.flatMap f).length ≤ ((l.take k).flatMap f).length ↔ l.length ≤ k := by
  constructor
  · intro h
    apply Decidable.byContradiction
    intro hk
    have h2 : l.flatMap f = (l.take k).flatMap f ++ (l.drop k).flatMap f := by
      rw [← List.flatMap_append, List.take_append_drop]
    rw [h2, List.length_append] at h
    have h3 : ((l.drop k).flatMap f).length = 0 := by omega
    have h4 := List.flatMap_eq_nil_iff.1 (List.length_eq_zero_iff.1 h3)
    have h5 : l.drop k ≠ [] := by
      intro e
      have := congrArg List.length e
      simp only [List.length_drop, List.length_nil] at this
      omega
    obtain ⟨a, as, e⟩ := List.exists_cons_of_ne_nil h5
    exact hf a (h4 a (by rw [e]; simp))
  · intro h
    rw [List.take_of_length_le h]

theorem onDisk_ok {w : Job} {ls : List (List Piece)} {r : History.Run ρ} (h : r.OK w) : (onDisk w ls r).OK w :=
  ⟨h.now, h.format, h.hex, h.order⟩

theorem onDisk_finished {w : Job} {ls : List (List Piece)} (h : w.OK ls) {r : History.Run ρ} (hr : Proper w r) :
    (onDisk w ls r).Finished w ↔ Finished r := by
  unfold History.Run.Finished Finished
  have hm : (onDisk w ls r).Marks ↔ r.ending = .finalized ∧ r.records.filter r.config.valid ≠ [] := by
    refine and_congr_right (fun _ => ⟨?_, Or.inl⟩)
    rintro (h1 | h1)
    · exact h1
    · rcases hr.marked with h2 | h2
      · exact h2
      · have h1 : r.config.alwaysComplete = true := h1
        rw [h1] at h2; cases h2
  rw [hm, and_assoc]
  refine and_congr_right (fun hf => and_congr_right (fun hne => ?_))
  have hops : (onDisk w ls r).ops w = .ok ((History.filesOf w r).flatMap
      (fun it => blobOps (frameFolder w ls r.now) it.1 it.2)) := History.ops_files (ls := ls) h (onDisk_ok hr.toOK)
  have hlen : r.stored.length = (History.filesOf w r).length := by
    rw [History.stored_eq r]
    unfold History.filesOf
    split <;> simp [blobs_length]
  rw [hlen, ← flatMap_take_full (fun it => blobOps (frameFolder w ls r.now) it.1 it.2)
    (by intro a e; have := congrArg List.length e; rw [Disk.blobOps_length, List.length_nil] at this; omega)]
  constructor
  · rintro ⟨ops, e, hle⟩
    rw [hops] at e
    rw [← Except.ok.inj e] at hle
    exact hle
  · intro hle
    exact ⟨_, hops, hle⟩

/-- The disk after whole files are stored, whose names are new. -/
theorem exec_items {cs : List Str} (items : List (Str × Disk.Bytes)) (hnd : (items.map Prod.fst).Nodup) {d : Disk}
    (h : Room d cs) (hnew : ∀ it ∈ items, at_ cs it ∉ d.names) :
    ∃ d', exec d (items.flatMap (fun it => blobOps cs it.1 it.2)) = .ok d' ∧
      d'.names = d.names ++ items.map (at_ cs) ∧
      (∀ it ∈ items, d'.content (at_ cs it) = it.2) ∧
      (∀ q, (∀ it ∈ items, q ≠ at_ cs it) → d'.content q = d.content q) := by
  induction items generalizing d with
  | nil => exact ⟨d, rfl, by simp, by simp, fun _ _ => rfl⟩
  | cons a items ih =>
    obtain ⟨hna, hnd'⟩ := List.nodup_cons.1 (by rw [List.map_cons] at hnd; exact hnd)
    have hne : ∀ it ∈ items, at_ cs it ≠ at_ cs a := by
      intro it hit e
      have e3 := List.append_cancel_left (congrArg Posix.comps e)
      simp only [List.cons.injEq, and_true] at e3
      exact hna (List.mem_map.2 ⟨it, hit, e3⟩)
    obtain ⟨d1, he, hr, hcase⟩ := commit_run h a.1 a.2 (blobOps cs a.1 a.2).length
    rw [List.take_length] at he
    have hl := Disk.blobOps_length cs a.1 a.2
    rcases hcase with ⟨hk, -⟩ | ⟨-, hn, hc1, hc2⟩
    · rw [hl] at hk; omega
    · have hn1 : d1.names = d.names ++ [at_ cs a] := by
        rw [hn]
        unfold addName
        have : d.names.contains (at_ cs a) = false := by
          rw [← Bool.not_eq_true, List.contains_iff_mem]
          exact hnew a (by simp)
        rw [if_neg (by rw [Bool.not_eq_true]; exact this)]
      obtain ⟨d', he', g1, g2, g3⟩ := ih hnd' hr (by
        intro it hit hm
        rw [hn1] at hm
        rcases List.mem_append.1 hm with hm | hm
        · exact hnew it (by simp [hit]) hm
        · exact hne it hit (List.mem_singleton.1 hm))
      refine ⟨d', ?_, ?_, ?_, ?_⟩
      · rw [List.flatMap_cons, exec_append, he]
        exact he'
      · rw [g1, hn1]; simp
      · intro it hit
        rcases List.mem_cons.1 hit with rfl | hit
        · rw [g3 _ (fun it' hit' e => hne it' hit' e.symm)]
          show d1.content ⟨[], cs ++ [it.1]⟩ = _
          rw [hc2, hl, List.take_of_length_le (by omega)]
        · exact g2 it hit
      · intro q hq
        rw [g3 q (fun it hit => hq it (by simp [hit]))]
        exact hc1 q (hq a (by simp))

/-! ## Objects that are new -/

theorem puts_fresh {β : Type} {s os : List (Obj β)} (hnd : (os.map Obj.key).Nodup) (hnew : ∀ o ∈ os, ∀ x ∈ s, x.key ≠ o.key) :
    puts s os = s ++ os := by
  induction os generalizing s with
  | nil => simp [puts]
  | cons o os ih =>
    obtain ⟨h1, h2⟩ := List.nodup_cons.1 (by rw [List.map_cons] at hnd; exact hnd)
    have e : put s o = s ++ [o] := by
      rw [put_eq, List.filter_eq_self.2]
      intro x hx
      simp [hnew o (by simp) x hx]
    show puts (put s o) os = _
    rw [e, ih h2]
    · simp
    · intro a ha x hx
      rcases List.mem_append.1 hx with hx | hx
      · exact hnew a (by simp [ha]) x hx
      · rw [List.mem_singleton.1 hx]
        intro e
        exact h1 (by rw [e]; exact List.mem_map.2 ⟨a, ha, rfl⟩)

/-! ## The objects of a run are its files -/

/-- An object of the run. -/
def objAt (w : Job) (ls : List (List Piece)) (now : DateTime) (it : Str × Disk.Bytes) : Obj Disk.Bytes :=
  ⟨(ls.map (filled w.date)).headD [], join ['/'] ((ls.map (filled w.date)).tail ++ [asAtName now]) ++ '/' :: it.1, it.2⟩

theorem objs_items (w : Job) (ls : List (List Piece)) (r : History.Run ρ) :
    objsOf w ls [] (part r) = ((History.filesOf w r).take r.stop).map (objAt w ls r.now) := by
  unfold History.filesOf objsOf objsIn
  rw [List.take_append, ← List.map_take, List.length_map, List.map_append, List.map_map]
  congr 1
  by_cases hc : (part r).complete = true
  · obtain ⟨hm, h⟩ := (part_complete r).1 hc
    obtain ⟨m, hm'⟩ : ∃ m, r.stop - (blobsOf r).length = m + 1 := ⟨r.stop - (blobsOf r).length - 1, by omega⟩
    rw [if_pos hc, if_pos hm, hm', List.take_succ_cons, List.take_nil]
    rfl
  · rw [if_neg hc]
    by_cases hm : r.Marks
    · have h : ¬ (blobsOf r).length < r.stop := fun h => hc ((part_complete r).2 ⟨hm, h⟩)
      rw [Nat.sub_eq_zero_of_le (by omega)]
      rfl
    · rw [if_neg hm, List.take_nil]
      rfl

theorem objAt_path {w : Job} {ls : List (List Piece)} (h : w.OK ls) (now : DateTime) (it : Str × Disk.Bytes) :
    (objAt w ls now it).bucket ++ '/' :: (objAt w ls now it).name
      = Framed.path ⟨w.base ls, asAtName now, it.1⟩ := by
  obtain ⟨l, ls, rfl⟩ := List.exists_cons_of_ne_nil h.ne
  unfold Framed.path Job.base objAt
  have := join_snoc ((l :: ls).map (filled w.date)) (asAtName now) (by simp)
  simp only
  rw [← this, List.map_cons, List.cons_append, join_cons _ _ (by simp)]
  simp

theorem objAt_file {w : Job} {ls : List (List Piece)} (h : w.OK ls) {now : DateTime} (hv : now.valid = true)
    {blobs : List (Str × Disk.Bytes)} (hid : ∀ b ∈ blobs, HexId b.1 ∧ b.1 ≠ []) {it : Str × Disk.Bytes}
    (hit : it ∈ runFiles w blobs) : (objAt w ls now it).file = at_ (frameFolder w ls now) it := by
  unfold Obj.file
  rw [objAt_path h]
  exact (Disk.at_soFar h hv hid (Disk.mem_runFiles_soFar hit)).symm

theorem objAt_tidy {w : Job} {ls : List (List Piece)} (h : w.OK ls) {now : DateTime} (hv : now.valid = true)
    {blobs : List (Str × Disk.Bytes)} (hid : ∀ b ∈ blobs, HexId b.1 ∧ b.1 ≠ []) {it : Str × Disk.Bytes}
    (hit : it ∈ runFiles w blobs) :
    Comp (objAt w ls now it).bucket ∧ ∃ cs, cs ≠ [] ∧ (∀ c ∈ cs, Comp c) ∧ (objAt w ls now it).name = join ['/'] cs := by
  apply objsOf_tidy h ([] : Disk.Bytes) (r := ⟨now, blobs, true⟩) hv (fun b hb => (hid b hb).1)
  unfold objsOf objsIn
  rcases List.mem_append.1 hit with hit | hit
  · obtain ⟨b, hb, rfl⟩ := List.mem_map.1 hit
    exact List.mem_append_left _ (List.mem_map.2 ⟨b, hb, rfl⟩)
  · rw [List.mem_singleton.1 hit]
    exact List.mem_append_right _ (by simp [objAt])

/-- An object whose name has an extension, so that a reader can fetch it. -/
def Fetchable (o : Obj Disk.Bytes) : Prop :=
  ∃ path stem ext, getParts (o.bucket ++ '/' :: o.name) = .ok (o.bucket, path, some stem, some ext) ∧
    path ++ stem ++ ext = o.name

theorem objAt_fetchable {w : Job} {ls : List (List Piece)} (h : w.OK ls) {now : DateTime} (hv : now.valid = true)
    {blobs : List (Str × Disk.Bytes)} (hid : ∀ b ∈ blobs, HexId b.1 ∧ b.1 ≠ []) {it : Str × Disk.Bytes}
    (hit : it ∈ runFiles w blobs) : Fetchable (objAt w ls now it) := by
  obtain ⟨stem, e, hn, hs, hs', he, he', hd⟩ : ∃ stem e, it.1 = stem ++ '.' :: e ∧ stem ≠ [] ∧ '/' ∉ stem ∧
      e ≠ [] ∧ '/' ∉ e ∧ '.' ∉ e := by
    rcases List.mem_append.1 hit with hit | hit
    · obtain ⟨b, hb, rfl⟩ := List.mem_map.1 hit
      obtain ⟨a, e, hext, he, hd, hs1, hs2⟩ := extension_parts w.format
      refine ⟨b.1 ++ a, e, by simp [hext], ?_, ?_, he, hs1, hd⟩
      · intro e0; exact (hid b hb).2 (List.append_eq_nil_iff.1 e0).1
      · rw [List.mem_append, not_or]
        exact ⟨hex_not (hid b hb).1 (by decide), hs2⟩
    · rw [List.mem_singleton.1 hit]
      exact ⟨"frame".toList, "complete".toList, by decide, by decide, by decide, by decide, by decide, by decide⟩
  have hc : ∀ c ∈ ls.map (filled w.date), Comp c := by
    intro c hc
    obtain ⟨l, hl, rfl⟩ := List.mem_map.1 hc
    exact folder_filled (h.folders l hl) h.date
  have hp := objAt_path h now it
  obtain ⟨l, ls, rfl⟩ := List.exists_cons_of_ne_nil h.ne
  have hparts := C52_parts_file (filled w.date l) (ls.map (filled w.date) ++ [asAtName now]) stem e
    (hc _ (by simp))
    (by
      intro f hf
      rcases List.mem_append.1 hf with hf | hf
      · exact hc f (by simp [List.mem_map.1 hf])
      · rw [List.mem_singleton.1 hf]
        exact ⟨by rw [asAtName_eq]; simp, by rw [asAtName_eq]; simp, asAtName_flat hv⟩)
    (by simp) hs hs' he he' hd
  refine ⟨join ['/'] (ls.map (filled w.date) ++ [asAtName now]) ++ ['/'], stem, '.' :: e, ?_, ?_⟩
  · rw [show (objAt w (l :: ls) now it).bucket ++ '/' :: (objAt w (l :: ls) now it).name
        = join ['/'] (filled w.date l :: (ls.map (filled w.date) ++ [asAtName now]) ++ [stem ++ '.' :: e]) from ?_]
    · exact hparts
    · rw [List.cons_append, join_cons _ _ (by simp), join_snoc _ _ (by simp), ← hn]
      simp [objAt]
  · simp [objAt, hn]

/-! ## Side by side -/

/-- Object storage and a disk with the same files in the folders of the days `S`. -/
structure Sim (ls : List (List Piece)) (S : DateTime → Prop) (s : List (Obj Disk.Bytes)) (d : Disk) : Prop where
  tidy : ObjectStore.Tidy s
  same : ∀ t, S t → (files s).filter (beneath ⟨[], folderOf ls t⟩) = d.names.filter (beneath ⟨[], folderOf ls t⟩)
  data : ∀ q ∈ d.names, ∃ o ∈ s, o.file = q ∧ endsWith ['/'] o.name = false ∧ o.data = d.content q ∧ Fetchable o

theorem file_key {a b : Obj Disk.Bytes} (e : a.key = b.key) : a.file = b.file ∧ a.name = b.name := by
  simp only [Obj.key, Prod.mk.injEq] at e
  exact ⟨by unfold Obj.file; rw [e.1, e.2], e.2⟩

/-- The names of a run are new. -/
theorem new_names {w : Job} {ls : List (List Piece)} (h : w.OK ls) {hs : List Batch}
    (hv : ∀ b ∈ hs, b.now.valid = true) (hi : ∀ b ∈ hs, ∀ i ∈ b.ids, HexId i) {d : Disk}
    (hd : Holds w hs d.names ⟨[], ls.map (filled w.date)⟩)
    {now : DateTime} (hnv : now.valid = true) (hnew : ∀ b ∈ hs, b.now.seconds < now.seconds) (it : Str × Disk.Bytes) :
    at_ (frameFolder w ls now) it ∉ d.names := by
  intro hm
  obtain ⟨b, hbm, hrest⟩ := (hd.beneath_iff (at_ (frameFolder w ls now) it)).1 ⟨hm, Disk.beneath_at w ls now it⟩
  obtain ⟨y, hy, e⟩ := (paths_eq h b (hv b hbm) _).1 hrest
  rw [(framed_parse h (hv b hbm) (hi b hbm) hy).1, (framed_base hy).2] at e
  simp only [at_, frameFolder, Posix.mk.injEq, true_and, List.append_assoc] at e
  have e := List.append_cancel_left e
  simp only [List.cons_append, List.nil_append, List.cons.injEq] at e
  have := asAtName_inj hnv (hv b hbm) e.1
  have hlt := hnew b hbm
  rw [← this] at hlt
  omega

theorem sim_run {w : Job} {ls : List (List Piece)} (hw : Daily w ls) {S : DateTime → Prop} (hS : ∀ t, S t → Day t)
    {H : DateTime → List Batch} {d : Disk} (hk : Kept w ls S H d) {s : List (Obj Disk.Bytes)} (hsim : Sim ls S s d)
    {t : DateTime} (hSt : S t) (r : History.Run ρ)
    (hp : Proper (on w t) r) (hnew : ∀ b ∈ H t, b.now.seconds < r.now.seconds) {d' : Disk}
    (he : History.afterRun (on w t) d (onDisk (on w t) ls r) = .ok d') :
    ∃ s', afterRun gcs (on w t) s r = .ok s' ∧ afterRun minio (on w t) s r = .ok s' ∧ Sim ls S s' d' := by
  have hok := hw.ok t (hS t hSt).valid
  have hr := hp.toOK
  obtain ⟨e1, e2⟩ := afterRun_eq hok s r hp
  refine ⟨_, e1, e2, ?_⟩
  unfold History.afterRun at he
  rw [History.ops_files (ls := ls) hok (onDisk_ok hr)] at he
  replace he : exec d (((History.filesOf (on w t) r).flatMap (fun it => blobOps (frameFolder (on w t) ls r.now) it.1 it.2)).take
      (((History.filesOf (on w t) r).take r.stop).flatMap
        (fun it => blobOps (frameFolder (on w t) ls r.now) it.1 it.2)).length) = .ok d' := he
  rw [flatMap_take] at he
  rw [objs_items]
  have hsub : ∀ it ∈ (History.filesOf (on w t) r).take r.stop, it ∈ runFiles (on w t) (blobsOf r) :=
    fun it h => History.mem_filesOf (List.mem_of_mem_take h)
  have hndf : (((History.filesOf (on w t) r).take r.stop).map Prod.fst).Nodup :=
    (Disk.runFiles_nodup (on w t) hr.id hr.nodup).sublist
      (((List.take_sublist _ _).trans (History.filesOf_sublist (on w t) r)).map _)
  generalize (History.filesOf (on w t) r).take r.stop = items at he hsub hndf ⊢
  have hfresh : ∀ it ∈ items, at_ (frameFolder (on w t) ls r.now) it ∉ d.names :=
    fun it _ => new_names hok (hk.valid t hSt) (hk.hex t hSt) (hk.holds t hSt) hr.now hnew it
  obtain ⟨d1, he1, g1, g2, g3⟩ := exec_items items hndf (History.Tidy.clear (w := on w t) (ls := ls) (hk.tidy t hSt) r.now).room hfresh
  rw [he1] at he
  cases he
  have hfile : ∀ it ∈ items, (objAt (on w t) ls r.now it).file = at_ (frameFolder (on w t) ls r.now) it :=
    fun it hit => objAt_file hok hr.now hr.id (hsub it hit)
  have hslash : ∀ it ∈ items, endsWith ['/'] (objAt (on w t) ls r.now it).name = false := by
    intro it hit
    obtain ⟨-, cs, hn, hc, e⟩ := objAt_tidy (ls := ls) hok hr.now hr.id (hsub it hit)
    rw [e]
    exact join_last hc hn
  have hfnd : (items.map (fun it => (objAt (on w t) ls r.now it).file)).Nodup := by
    have e : items.map (fun it => (objAt (on w t) ls r.now it).file)
        = (items.map Prod.fst).map (fun n => ⟨[], frameFolder (on w t) ls r.now ++ [n]⟩) := by
      rw [List.map_map]
      exact List.map_congr_left (fun it hit => hfile it hit)
    rw [e]
    refine List.Pairwise.map _ ?_ hndf
    intro a b hab e
    simp only [Posix.mk.injEq, true_and] at e
    have := List.append_cancel_left e
    simp only [List.cons.injEq, and_true] at this
    exact hab this
  have hputs : puts s (items.map (objAt (on w t) ls r.now)) = s ++ items.map (objAt (on w t) ls r.now) := by
    apply puts_fresh
    · rw [List.map_map]
      have : (items.map (fun it => (objAt (on w t) ls r.now it).file)).Nodup := hfnd
      refine List.Nodup.of_map (fun k : Str × Str => Posix.parse (k.1 ++ '/' :: k.2)) ?_
      rw [List.map_map]
      exact this
    · intro o ho x hx e
      obtain ⟨it, hit, rfl⟩ := List.mem_map.1 ho
      obtain ⟨k1, k2⟩ := file_key e
      have hmem : x.file ∈ (files s).filter (beneath ⟨[], folderOf ls t⟩) := by
        refine List.mem_filter.2 ⟨List.mem_map.2 ⟨x, List.mem_filter.2 ⟨hx, ?_⟩, rfl⟩, ?_⟩
        · rw [k2, hslash it hit]; rfl
        · rw [k1, hfile it hit]
          exact Disk.beneath_at (on w t) ls r.now it
      rw [hsim.same t hSt] at hmem
      apply hfresh it hit
      rw [← hfile it hit, ← k1]
      exact (List.mem_filter.1 hmem).1
  have htidy : ObjectStore.Tidy (puts s (items.map (objAt (on w t) ls r.now))) := by
    apply puts_tidy hsim.tidy
    intro o ho
    obtain ⟨it, hit, rfl⟩ := List.mem_map.1 ho
    exact objAt_tidy hok hr.now hr.id (hsub it hit)
  rw [hputs] at htidy ⊢
  have hfs : files (s ++ items.map (objAt (on w t) ls r.now))
      = files s ++ items.map (at_ (frameFolder (on w t) ls r.now)) := by
    unfold files
    rw [List.filter_append, List.map_append]
    congr 1
    rw [List.filter_eq_self.2, List.map_map]
    · exact List.map_congr_left (fun it hit => hfile it hit)
    · intro o ho
      obtain ⟨it, hit, rfl⟩ := List.mem_map.1 ho
      rw [hslash it hit]; rfl
  refine ⟨htidy, ?_, ?_⟩
  · intro u hu
    rw [hfs, g1, List.filter_append, List.filter_append, hsim.same u hu]
  · intro q hq
    rw [g1] at hq
    rcases List.mem_append.1 hq with hq | hq
    · obtain ⟨o, ho, k1, k2, k3, k4⟩ := hsim.data q hq
      refine ⟨o, List.mem_append_left _ ho, k1, k2, ?_, k4⟩
      rw [k3, g3 q]
      intro it hit e
      exact hfresh it hit (e ▸ hq)
    · obtain ⟨it, hit, rfl⟩ := List.mem_map.1 hq
      exact ⟨_, List.mem_append_right _ (List.mem_map.2 ⟨it, hit, rfl⟩), hfile it hit, hslash it hit,
        (g2 it hit).symm, objAt_fetchable hok hr.now hr.id (hsub it hit)⟩

/-- Any number of runs. -/
theorem sim_runs {w : Job} {ls : List (List Piece)} (hw : Daily w ls) {S : DateTime → Prop} (hS : ∀ t, S t → Day t)
    (runs : List (DateTime × History.Run ρ)) (hr : ∀ p ∈ runs, S p.1 ∧ Proper (on w p.1) p.2)
    (hord : runs.Pairwise (fun a b => a.1 = b.1 → a.2.now.seconds < b.2.now.seconds))
    (H : DateTime → List Batch) (d : Disk) (hk : Kept w ls S H d)
    (hnew : ∀ p ∈ runs, ∀ b ∈ H p.1, b.now.seconds < p.2.now.seconds)
    (s : List (Obj Disk.Bytes)) (hsim : Sim ls S s d) :
    ∃ d' s', History.afterDayRuns w d (runs.map (fun p => (p.1, onDisk (on w p.1) ls p.2))) = .ok d' ∧
      afterDayRuns gcs w s runs = .ok s' ∧ afterDayRuns minio w s runs = .ok s' ∧ Sim ls S s' d' := by
  induction runs generalizing H d s with
  | nil => exact ⟨d, s, rfl, rfl, rfl, hsim⟩
  | cons r runs ih =>
    obtain ⟨hlt, hord'⟩ := List.pairwise_cons.1 hord
    obtain ⟨hSr, hrr⟩ := hr r (by simp)
    have hok := hw.ok r.1 (hS r.1 hSr).valid
    obtain ⟨b, d1, he1, e1, e2, e3, hk1, -, -⟩ :=
      History.one_day_run hw hS hk hSr (onDisk (on w r.1) ls r.2) (onDisk_ok hrr.toOK) (fun b hb => hnew r (by simp) b hb)
    obtain ⟨s1, j1, j2, hsim1⟩ := sim_run hw hS hk hsim hSr r.2 hrr (fun b hb => hnew r (by simp) b hb) he1
    obtain ⟨d', s', he, h1, h2, h3⟩ := ih (fun r' h' => hr r' (by simp [h'])) hord' _ d1 hk1 (by
      intro p hp b' hb'
      by_cases hpt : p.1 = r.1
      · rw [if_pos hpt] at hb'
        rcases List.mem_append.1 hb' with hb' | hb'
        · exact hnew p (by simp [hp]) b' (by rw [hpt]; exact hb')
        · rw [List.mem_singleton.1 hb', e1]
          exact hlt p hp hpt.symm
      · rw [if_neg hpt] at hb'
        exact hnew p (by simp [hp]) b' hb') s1 hsim1
    have j1' : afterRun gcs { w with date := r.1 } s r.2 = .ok s1 := j1
    have j2' : afterRun minio { w with date := r.1 } s r.2 = .ok s1 := j2
    have he1' : History.afterRun { w with date := r.1 } d (onDisk (on w r.1) ls r.2) = .ok d1 := he1
    refine ⟨d', s', ?_, by simp only [afterDayRuns, j1']; exact h1, by simp only [afterDayRuns, j2']; exact h2, h3⟩
    simp only [List.map_cons, History.afterDayRuns, he1']
    exact he

/-- What is listed in the folder of a day. -/
theorem sim_listed {ls : List (List Piece)} {S : DateTime → Prop} {s : List (Obj Disk.Bytes)} {d : Disk}
    (h : Sim ls S s d) {t : DateTime} (ht : S t) :
    diskBlobsAt (files s) ⟨[], folderOf ls t⟩ = diskBlobsAt d.names ⟨[], folderOf ls t⟩ := by
  unfold diskBlobsAt
  rw [h.same t ht]

/-- What is read of a blob that is listed. -/
theorem sim_read {ls : List (List Piece)} {S : DateTime → Prop} {s : List (Obj Disk.Bytes)} {d : Disk}
    (h : Sim ls S s d) (p : Posix) {x : Str} (hx : x ∈ diskBlobsAt d.names p) : blobBytes s x = read d x := by
  obtain ⟨q, hq, rfl⟩ := List.mem_map.1 hx
  have hq := (List.mem_filter.1 hq).1
  obtain ⟨o, ho, e, hsl, hdat, path, stem, ext, hparts, hname⟩ := h.data q hq
  have hstr : q.str = o.bucket ++ '/' :: o.name ∧ Posix.parse q.str = q := by
    rcases h.tidy.name o ho with hl | ⟨cs, hn, hc, hj⟩
    · rw [hsl] at hl; cases hl
    · have := (file_eq (h.tidy.bucket o ho) hn hc hj).2
      rw [e] at this
      exact ⟨this, by rw [this]; exact e⟩
  have hr : read d q.str = .ok o.data := by
    unfold Disk.read
    rw [hstr.2, hdat]
    have : d.names.contains q = true := by simpa using hq
    rw [this, if_pos rfl]
  rw [hr]
  unfold blobBytes
  rw [hstr.1, hparts]
  simp only [hname, get_of_mem h.tidy.once ho]

end Mabel.Cloud
