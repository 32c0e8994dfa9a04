import Verif.Model.History
import Verif.Props.EndToEnd
import Verif.Props.Disk

/-!
# Histories of runs that may be stopped: C86
-/

namespace Mabel.History
open Mabel.Py Mabel.Paths Mabel.Listing Mabel.Spec Mabel.Naming Mabel.Blobs Mabel.Dates Mabel.EndToEnd
open Mabel.Disk hiding Bytes
variable {ρ : Type}

/-! ## What a run stores -/

theorem appends_store (c : Writer.Config ρ) (rs : List ρ) {s : Writer.State ρ} {g : List (List ρ)} {p : List ρ}
    (h : Writer.Rep c s g p) (hs : Writer.Stored.complete ∉ s.store) :
    Writer.Stored.complete ∉ (Writer.run c s (rs.map .append)).store := by
  induction rs generalizing s g p with
  | nil => exact hs
  | cons r rs ih =>
    obtain ⟨g1, p1, hr1, -, -, hst⟩ := Writer.step_rep h (.append r)
    refine ih hr1 ?_
    rcases hst with ⟨e, he, hc⟩ | ⟨e, he, -⟩
    · rw [he]; simp [hs, hc]
    · cases he

theorem only_data {l : List Writer.Stored} (h : Writer.Stored.complete ∉ l) :
    l = (Writer.Spec.dataBlobs l).map .data := by
  induction l with
  | nil => rfl
  | cons a l ih =>
    cases a with
    | data b =>
      have := ih (by simp at h; exact h)
      rw [show Writer.Spec.dataBlobs (.data b :: l) = b :: Writer.Spec.dataBlobs l from rfl, List.map_cons, ← this]
    | complete => simp at h

theorem offered_appends (valid : ρ → Bool) (rs : List ρ) :
    Writer.Spec.offered valid (rs.map .append) = rs.filter valid := by
  induction rs with
  | nil => rfl
  | cons r rs ih =>
    by_cases h : valid r = true
    · have : Writer.Spec.offered valid ((r :: rs).map .append) = r :: Writer.Spec.offered valid (rs.map .append) := by
        simp [Writer.Spec.offered, h]
      rw [this, ih, List.filter_cons_of_pos h]
    · have : Writer.Spec.offered valid ((r :: rs).map .append) = Writer.Spec.offered valid (rs.map .append) := by
        simp [Writer.Spec.offered, h]
      rw [this, ih, List.filter_cons_of_neg h]

theorem accepted_appends (c : Writer.Config ρ) (rs : List ρ) :
    Writer.Spec.accepted (Writer.outcomes c {} (rs.map .append)) = rs.filter c.valid := by
  rw [(Writer.C01_conservation c (rs.map .append) false).2, offered_appends]

/-- A run that is to be marked complete: it ends with `finalize()`, and there is a valid record or it is to be marked even
without (`always_complete`). -/
def Run.Marks (r : Run ρ) : Prop :=
  r.ending = .finalized ∧ (r.records.filter r.config.valid ≠ [] ∨ r.config.alwaysComplete = true)

/-- After a `finalize()` a writer has nothing left to commit when it is dropped. -/
theorem drop_finalized (c : Writer.Config ρ) (calls : List (Writer.Op ρ)) (f : Bool) :
    (Writer.drop c (Writer.run c {} (calls ++ [.finalize f]))).store = (Writer.run c {} (calls ++ [.finalize f])).store := by
  have h0 : Writer.Rep c ({} : Writer.State ρ) [] [] := Writer.Rep.init _ []
  obtain ⟨g, p, hr, -, hf⟩ := Writer.run_rep h0 calls
  rw [Writer.run_append]
  simp only [Writer.run, Writer.step]
  rcases Writer.finalize_cases hr f with ⟨fs, -, h2⟩ | ⟨s', e, r, h1, h2, -⟩
  · rw [hf rfl] at h2; cases h2
  · have hd : (Writer.commit c s').1.store = s'.store := by
      rcases Writer.commit_cases h2 with ⟨fs, h3, -, h4⟩ | ⟨s'', h3, -, -, -, -, -, h4⟩
      · exact absurd rfl h4
      · rw [h3]
        simpa using h4
    rw [h1]
    cases r <;> exact hd

/-- A run that finalizes stores what the calls with which it ends have stored. -/
theorem stored_finalized {r : Run ρ} (h : r.ending = .finalized) :
    r.stored = (Writer.run r.config {} (r.records.map .append ++ [.finalize false])).store := by
  unfold Run.stored
  rw [h]
  exact drop_finalized r.config _ false

/-- A run stores its blobs and then the marker, if it is to be marked. -/
theorem stored_some (r : Run ρ) (h : r.Marks) :
    r.stored = (writtenBlobs r.config (r.records.map .append)).map .data ++ [.complete] := by
  have h0 : Writer.Rep r.config ({} : Writer.State ρ) [] [] := Writer.Rep.init _ []
  obtain ⟨g, p, hr, -, -⟩ := Writer.run_rep h0 (r.records.map .append)
  have hc := appends_store r.config r.records h0 (by simp)
  obtain ⟨⟨k, h1, -, h3⟩, -⟩ := Writer.C06_marker_policy r.config (r.records.map .append) false
  have hk : k = 1 := h3.2 ⟨rfl, by simp, by rw [accepted_appends]; exact h.2⟩
  rw [List.count_eq_zero.2 hc, hk] at h1
  rw [stored_finalized h.1]
  unfold writtenBlobs
  rw [Writer.run_append] at h1 ⊢
  simp only [Writer.run] at h1 ⊢
  obtain ⟨g1, p1, -, -, -, hst⟩ := Writer.step_rep hr (.finalize false)
  rcases hst with ⟨e, he, hce⟩ | ⟨e, -, -, hce, he, -, -⟩
  · rw [he, List.count_append, List.count_eq_zero.2 hc, List.count_eq_zero.2 hce] at h1
    simp at h1
  · rw [he]
    have hx : Writer.Stored.complete ∉ (Writer.run r.config {} (r.records.map .append)).store ++ e := by simp [hc, hce]
    have hd : ∀ a : List Writer.Stored, Writer.Spec.dataBlobs (a ++ [.complete]) = Writer.Spec.dataBlobs a := by
      intro a
      simp [Writer.Spec.dataBlobs, List.filterMap_append]
    rw [hd, ← only_data hx]

/-- A run that is not to be marked stores no marker: it has no valid record, or reports a failure, or drops its writer. -/
theorem stored_unmarked (r : Run ρ) (h : ¬ r.Marks) : r.stored = (Writer.Spec.dataBlobs r.stored).map .data := by
  have h0 : Writer.Rep r.config ({} : Writer.State ρ) [] [] := Writer.Rep.init _ []
  have hc := appends_store r.config r.records h0 (by simp)
  have hc' := List.count_eq_zero.2 hc
  apply only_data
  rw [← List.count_eq_zero]
  unfold Run.stored
  rw [Writer.C06_dropped r.config [] _]
  cases he : r.ending with
  | finalized =>
    obtain ⟨⟨k, h1, h2, h3⟩, -⟩ := Writer.C06_marker_policy r.config (r.records.map .append) false
    have hk : k = 0 := by
      by_contra hk
      have hk1 : k = 1 := by omega
      obtain ⟨-, -, h4⟩ := h3.1 hk1
      rw [accepted_appends] at h4
      exact h ⟨he, h4⟩
    rw [hc', hk] at h1
    exact h1
  | failed later =>
    have h1 := Writer.C06_failure_is_sticky r.config [] (r.records.map .append) later (by
      obtain ⟨g, p, hr, -, hf⟩ := Writer.run_rep h0 (r.records.map .append)
      simp only [Writer.step]
      rcases Writer.finalize_cases hr true with ⟨fs, -, h2⟩ | ⟨s', e, x, h1, h2, -, -, -, -, h3⟩
      · rw [hf rfl] at h2; cases h2
      · rw [h1]
        rcases h3 with ⟨h3, -⟩ | ⟨h3, -⟩ | ⟨-, -, -, h3, -⟩
        · rw [h3]
        · rw [h3]
        · exact absurd (hf rfl) h3)
    exact h1.trans hc'
  | dropped =>
    simp only [Ending.calls, List.append_nil]
    exact hc'

/-- The blobs of a run, with the random parts of their names. -/
def blobsOf (r : Run ρ) : List (Str × Bytes) :=
  (Writer.Spec.dataBlobs r.stored).zipIdx.map (fun p => (r.ids p.2, p.1))

/-- What a run stores: its blobs, and then the marker if it is to be marked. -/
theorem stored_eq (r : Run ρ) : r.stored = (Writer.Spec.dataBlobs r.stored).map .data ++
    (open Classical in if r.Marks then [.complete] else []) := by
  split
  · rename_i hm
    have h := stored_some r hm
    have hd : Writer.Spec.dataBlobs r.stored = writtenBlobs r.config (r.records.map .append) := by
      rw [stored_finalized hm.1]; rfl
    rw [hd]
    exact h
  · rename_i hm
    rw [List.append_nil]
    exact stored_unmarked r hm

/-- What is stored by a run that finalizes: one blob after the other. -/
theorem dataBlobs_finalized {r : Run ρ} (h : r.ending = .finalized) :
    Writer.Spec.dataBlobs r.stored = writtenBlobs r.config (r.records.map .append) := by
  rw [stored_finalized h]
  rfl

/-- Without a valid record there is no blob. -/
theorem blobsOf_none {r : Run ρ} (he : r.ending = .finalized) (h : r.records.filter r.config.valid = []) :
    blobsOf r = [] := by
  obtain ⟨⟨groups, hg1, hg2, hg3⟩, -⟩ := Writer.C01_conservation r.config (r.records.map .append) false
  have hgr : groups = [] := by
    rw [accepted_appends, h] at hg2
    cases groups with
    | nil => rfl
    | cons g groups =>
      have := hg3 g (by simp)
      rw [List.flatten_cons, List.append_eq_nil_iff] at hg2
      exact absurd hg2.1 this
  unfold blobsOf
  rw [dataBlobs_finalized he]
  unfold writtenBlobs
  rw [hg1, hgr]
  rfl

theorem items_eq {w : Job} {ls : List (List Piece)} (h : w.OK ls) {now : DateTime} (hv : now.valid = true)
    (ids : Nat → Str) (bs : List Bytes) (n : Nat) :
    items w now ids n (bs.map .data ++ [.complete])
      = runItems w now ((bs.zipIdx n).map (fun p => (ids p.2, p.1))) := by
  have hr : ∀ blobs : List (Str × Bytes), runItems w now blobs
      = .ok (blobs.map (fun b => (Framed.path ⟨w.base ls, asAtName now, b.1 ++ extension w.format⟩, b.2)) ++
        [(completionPath (Framed.path ⟨w.base ls, asAtName now, "{stem}".toList ++ extension w.format⟩), [])]) := by
    intro blobs
    unfold runItems
    rw [mapM_map (g := fun b => (Framed.path ⟨w.base ls, asAtName now, b.1 ++ extension w.format⟩, b.2))
      (fun b _ => by rw [batchBlob_eq h hv]; rfl), batchBlob_eq h hv]
  rw [hr]
  induction bs generalizing n with
  | nil =>
    simp only [List.map_nil, List.nil_append, items, batchBlob_eq h hv]
    rfl
  | cons b bs ih =>
    simp only [List.map_cons, List.cons_append, items, batchBlob_eq h hv, ih, List.zipIdx_cons]

theorem items_data {w : Job} {ls : List (List Piece)} (h : w.OK ls) {now : DateTime} (hv : now.valid = true)
    (ids : Nat → Str) (bs : List Bytes) (n : Nat) :
    items w now ids n (bs.map .data)
      = .ok (((bs.zipIdx n).map (fun p => (ids p.2, p.1))).map
        (fun b => (Framed.path ⟨w.base ls, asAtName now, b.1 ++ extension w.format⟩, b.2))) := by
  induction bs generalizing n with
  | nil => rfl
  | cons b bs ih => simp only [List.map_cons, items, batchBlob_eq h hv, ih, List.zipIdx_cons]

/-! ## The disk between runs -/

/-- What is known of the disk: `folder` is the folder of the date. -/
structure Tidy (folder : List Str) (d : Disk) : Prop where
  nodup : d.names.Nodup
  above : ∀ q ∈ d.names, q.root = [] → ¬ q.comps <+: folder
  files : ∀ q ∈ d.names, q.root = [] → folder <+: q.comps → q.comps.length = folder.length + 2
  dirs : ∀ q ∈ d.dirs, q.root = [] → folder <+: q.comps → q.comps.length ≤ folder.length + 1

theorem Tidy.clear {w : Job} {ls : List (List Piece)} {d : Disk} (h : Tidy (ls.map (filled w.date)) d) (now : DateTime) :
    Clear d (frameFolder w ls now) where
  noFile q hq hr hp := by
    unfold frameFolder at hp
    rcases List.prefix_concat_iff.1 hp with e | e
    · have := h.files q hq hr (by rw [e]; exact List.prefix_append _ _)
      rw [e] at this
      simp at this
    · exact h.above q hq hr e
  noDir q hq hr := by
    rintro ⟨h1, h2⟩
    have h3 := h.dirs q hq hr ((List.prefix_append _ _).trans h1)
    have h4 := h1.length_le
    have h5 : (frameFolder w ls now).length = (ls.map (filled w.date)).length + 1 := by simp [frameFolder]
    exact h2 (h1.eq_of_length (by omega))

/-- The files a run creates. -/
theorem run_creates {w : Job} {ls : List (List Piece)} {now : DateTime} {blobs : List (Str × Bytes)} {k : Nat} (q : Posix)
    (hq : .create q ∈ ((runFiles w blobs).flatMap (fun it => blobOps (frameFolder w ls now) it.1 it.2)).take k) :
    ∃ n, q = ⟨[], ls.map (filled w.date) ++ [asAtName now, n]⟩ := by
  obtain ⟨it, -, hm⟩ := List.mem_flatMap.1 (List.mem_of_mem_take hq)
  unfold blobOps at hm
  rcases List.mem_append.1 hm with hm | hm
  · simp [makedirs] at hm
  · rcases List.mem_cons.1 hm with hm | hm
    · cases hm
      exact ⟨it.1, by simp [frameFolder]⟩
    · simp at hm

theorem stopped_tidy {w : Job} {ls : List (List Piece)} (h : w.OK ls) {now : DateTime} (hv : now.valid = true)
    {d d' : Disk} {blobs : List (Str × Bytes)} (hid : ∀ b ∈ blobs, HexId b.1 ∧ b.1 ≠ []) {k : Nat}
    (hs : stopped d w now blobs k = .ok d') {folder : List Str} (hlen : folder.length = ls.length) (ht : Tidy folder d) :
    Tidy folder d' := by
  rw [stopped_eq h hv d hid] at hs
  have hnew : ∀ q, .create q ∈ ((runFiles w blobs).flatMap (fun it => blobOps (frameFolder w ls now) it.1 it.2)).take k →
      ∃ n, q = ⟨[], ls.map (filled w.date) ++ [asAtName now, n]⟩ := run_creates
  have hdir : ∀ q, .mkdir q ∈ ((runFiles w blobs).flatMap (fun it => blobOps (frameFolder w ls now) it.1 it.2)).take k →
      q.comps.length ≤ folder.length + 1 := by
    intro q hq
    obtain ⟨it, -, hm⟩ := List.mem_flatMap.1 (List.mem_of_mem_take hq)
    unfold blobOps at hm
    rcases List.mem_append.1 hm with hm | hm
    · unfold makedirs at hm
      obtain ⟨i, hi, e⟩ := List.mem_map.1 hm
      cases e
      simp [frameFolder, hlen]
    · rcases List.mem_cons.1 hm with hm | hm
      · cases hm
      · simp at hm
  refine ⟨exec_nodup hs ht.nodup, ?_, ?_, ?_⟩
  · intro q hq hr hp
    rcases exec_names hs hq with h1 | h1
    · exact ht.above q h1 hr hp
    · obtain ⟨n, rfl⟩ := hnew q h1
      have := hp.length_le
      simp [hlen] at this
  · intro q hq hr hp
    rcases exec_names hs hq with h1 | h1
    · exact ht.files q h1 hr hp
    · obtain ⟨n, rfl⟩ := hnew q h1
      simp [hlen]
  · intro q hq hr hp
    rcases exec_dirs hs hq with h1 | h1
    · exact ht.dirs q h1 hr hp
    · exact hdir q h1

/-- A run for one date leaves the folders of other dates as they are. -/
theorem stopped_elsewhere {w : Job} {ls : List (List Piece)} (h : w.OK ls) {now : DateTime} (hv : now.valid = true)
    {d d' : Disk} {blobs : List (Str × Bytes)} (hid : ∀ b ∈ blobs, HexId b.1 ∧ b.1 ≠ []) {k : Nat}
    (hs : stopped d w now blobs k = .ok d') {folder : List Str} (hlen : folder.length = ls.length)
    (hne : folder ≠ ls.map (filled w.date)) (hnorm : ∀ q ∈ d'.names, Posix.parse q.str = q) {w' : Job} {hs' : List Batch}
    (hd : Holds w' hs' d.names ⟨[], folder⟩) : Holds w' hs' d'.names ⟨[], folder⟩ := by
  rw [stopped_eq h hv d hid] at hs
  refine ⟨hnorm, ?_⟩
  intro q
  rw [← hd.beneath_iff q]
  constructor
  · rintro ⟨h1, h2⟩
    rcases exec_names hs h1 with h3 | h3
    · exact ⟨h3, h2⟩
    · exfalso
      obtain ⟨n, rfl⟩ := run_creates q h3
      simp only [beneath, Bool.and_eq_true] at h2
      have h4 := List.isPrefixOf_iff_prefix.1 h2.1.2
      exact hne ((List.prefix_of_prefix_length_le h4 (List.prefix_append _ _) (by simp [hlen])).eq_of_length
        (by simp [hlen]))
  · rintro ⟨h1, h2⟩
    exact ⟨exec_keeps hs h1, h2⟩

/-! ## Runs -/

/-- How many blobs a run stores, if it is not stopped. -/
def Run.count (r : Run ρ) : Nat := (Writer.Spec.dataBlobs r.stored).length

/-- What is known of a run: its time is a time; the random parts of the names are as they are made, and
ascend. -/
structure Run.OK (w : Job) (r : Run ρ) : Prop where
  now : r.now.valid = true
  format : r.config.format = formatOf w.format
  hex : ∀ n < r.count, HexId (r.ids n) ∧ r.ids n ≠ []
  order : ∀ n m, n < m → m < r.count → (r.ids n).length = (r.ids m).length ∧ r.ids n < r.ids m

/-- A run that is not stopped before its last step, and that is to be marked complete. -/
def Run.Finished (w : Job) (r : Run ρ) : Prop :=
  r.Marks ∧ ∃ ops, r.ops w = .ok ops ∧ ops.length ≤ r.stop

theorem blobsOf_fst (r : Run ρ) : (blobsOf r).map Prod.fst = (List.range r.count).map r.ids := by
  unfold blobsOf Run.count
  rw [List.map_map, List.range_eq_range', ← List.zipIdx_map_snd 0, List.map_map]
  rfl

theorem blobsOf_snd {r : Run ρ} (h : r.ending = .finalized) :
    (blobsOf r).map Prod.snd = writtenBlobs r.config (r.records.map .append) := by
  unfold blobsOf
  rw [dataBlobs_finalized h, List.map_map]
  exact List.zipIdx_map_fst 0 _

theorem Run.OK.id {w : Job} {r : Run ρ} (h : r.OK w) : ∀ b ∈ blobsOf r, HexId b.1 ∧ b.1 ≠ [] := by
  intro b hb
  have : b.1 ∈ (blobsOf r).map Prod.fst := List.mem_map_of_mem hb
  rw [blobsOf_fst] at this
  obtain ⟨n, hn, e⟩ := List.mem_map.1 this
  rw [← e]
  exact h.hex n (List.mem_range.1 hn)

theorem Run.OK.pairwise {w : Job} {r : Run ρ} (h : r.OK w) :
    ((blobsOf r).map Prod.fst).Pairwise (fun i j => i.length = j.length ∧ i < j) := by
  rw [blobsOf_fst, List.pairwise_map]
  refine List.Pairwise.imp_of_mem ?_ (List.pairwise_lt_range)
  intro a b _ hb hab
  exact h.order a b hab (List.mem_range.1 hb)

theorem Run.OK.nodup {w : Job} {r : Run ρ} (h : r.OK w) : ((blobsOf r).map Prod.fst).Nodup := by
  refine h.pairwise.imp ?_
  intro i j hij e
  rw [e] at hij
  exact List.lt_irrefl _ hij.2

theorem ops_eq {w : Job} {ls : List (List Piece)} (h : w.OK ls) {r : Run ρ} (hr : r.OK w)
    (hne : r.Marks) :
    r.ops w = .ok ((runFiles w (blobsOf r)).flatMap (fun it => blobOps (frameFolder w ls r.now) it.1 it.2)) := by
  have hid := hr.id
  unfold blobsOf at hid ⊢
  rw [dataBlobs_finalized hne.1] at hid ⊢
  unfold Run.ops
  rw [stored_some r hne, items_eq h hr.now r.ids _ 0]
  exact run_ops h hr.now hid

/-- The steps of a run that is not to be marked: those for its blobs. -/
theorem ops_unmarked {w : Job} {ls : List (List Piece)} (h : w.OK ls) {r : Run ρ} (hr : r.OK w) (hne : ¬ r.Marks) :
    r.ops w = .ok (((blobsOf r).map (fun b => (b.1 ++ extension w.format, b.2))).flatMap
      (fun it => blobOps (frameFolder w ls r.now) it.1 it.2)) := by
  unfold Run.ops
  have e : items w r.now r.ids 0 r.stored = .ok ((blobsOf r).map
      (fun b => (Framed.path ⟨w.base ls, asAtName r.now, b.1 ++ extension w.format⟩, b.2))) := by
    rw [stored_unmarked r hne, items_data h hr.now]
    rfl
  rw [e]
  exact data_ops h hr.now hr.id

/-- The files of a run, in the order in which they are stored. -/
noncomputable def filesOf (w : Job) (r : Run ρ) : List (Str × Bytes) :=
  (blobsOf r).map (fun b => (b.1 ++ extension w.format, b.2)) ++
    (open Classical in if r.Marks then [("frame.complete".toList, [])] else [])

theorem mem_filesOf {w : Job} {r : Run ρ} {it : Str × Bytes} (h : it ∈ filesOf w r) : it ∈ runFiles w (blobsOf r) := by
  rcases List.mem_append.1 h with h | h
  · exact List.mem_append_left _ h
  · split at h
    · exact List.mem_append_right _ h
    · cases h

theorem filesOf_sublist (w : Job) (r : Run ρ) : (filesOf w r).Sublist (runFiles w (blobsOf r)) := by
  unfold filesOf runFiles
  split
  · exact List.Sublist.refl _
  · exact (List.Sublist.refl _).append (List.nil_sublist _)

theorem ops_files {w : Job} {ls : List (List Piece)} (h : w.OK ls) {r : Run ρ} (hr : r.OK w) :
    r.ops w = .ok ((filesOf w r).flatMap (fun it => blobOps (frameFolder w ls r.now) it.1 it.2)) := by
  unfold filesOf
  split
  · rename_i hm
    exact ops_eq h hr hm
  · rename_i hm
    rw [List.append_nil]
    exact ops_unmarked h hr hm

/-- The steps of a run, up to any point, are the first of those with which its blobs and then a marker are stored; and the
marker is among them just if the run comes to its end and is to be marked. -/
theorem afterRun_eq {w : Job} {ls : List (List Piece)} (h : w.OK ls) {r : Run ρ} (hr : r.OK w) :
    ∃ k, (∀ d, afterRun w d r = stopped d w r.now (blobsOf r) k) ∧
      (((runFiles w (blobsOf r)).flatMap (fun it => blobOps (frameFolder w ls r.now) it.1 it.2)).length ≤ k
        ↔ r.Finished w) := by
  by_cases hne : r.Marks
  · refine ⟨r.stop, ?_, ?_⟩
    · intro d
      unfold afterRun
      rw [ops_eq h hr hne, stopped_eq h hr.now d hr.id]
    · constructor
      · intro hlen
        exact ⟨hne, _, ops_eq h hr hne, hlen⟩
      · rintro ⟨-, ops, ho, hlen⟩
        rw [ops_eq h hr hne] at ho
        cases ho
        exact hlen
  · refine ⟨min r.stop (((blobsOf r).map (fun b => (b.1 ++ extension w.format, b.2))).flatMap
      (fun it => blobOps (frameFolder w ls r.now) it.1 it.2)).length, ?_, ?_⟩
    · intro d
      unfold afterRun
      rw [ops_unmarked h hr hne, stopped_eq h hr.now d hr.id, runFiles, List.flatMap_append, ← List.take_take,
        List.take_left]
    · constructor
      · intro hlen
        exfalso
        have hl := (Nat.le_min.1 hlen).2
        rw [runFiles, List.flatMap_append, List.length_append, List.flatMap_singleton, blobOps_length] at hl
        have key : ∀ a n : Nat, ¬ a + (n + 1 + 0) ≤ a := by omega
        exact key _ _ hl
      · intro hf
        exact absurd hf.1 hne

/-- One run. -/
theorem one_run (w : Job) (ls : List (List Piece)) (h : w.OK ls) (hs : List Batch)
    (hv : ∀ b ∈ hs, b.now.valid = true) (hi : ∀ b ∈ hs, ∀ i ∈ b.ids, HexId i) (d : Disk)
    (hd : Holds w hs d.names ⟨[], ls.map (filled w.date)⟩) (ht : Tidy (ls.map (filled w.date)) d)
    (r : Run ρ) (hr : r.OK w) (hnew : ∀ b ∈ hs, b.now.seconds < r.now.seconds) :
    ∃ b d', afterRun w d r = .ok d' ∧ b.now = r.now ∧ b.ignored = false ∧ (b.complete = true ↔ r.Finished w) ∧
      (∀ i ∈ b.ids, HexId i) ∧
      Holds w (hs ++ [b]) d'.names ⟨[], ls.map (filled w.date)⟩ ∧ Tidy (ls.map (filled w.date)) d' ∧
      (∀ x bytes, read d x = .ok bytes → read d' x = .ok bytes) ∧
      (r.Finished w → b.ids = (blobsOf r).map Prod.fst ∧ ∀ p ∈ blobsOf r,
        read d' (Framed.path ⟨w.base ls, asAtName r.now, p.1 ++ extension w.format⟩) = .ok p.2) := by
  obtain ⟨k, hk, hkf⟩ := afterRun_eq h hr
  obtain ⟨j, d', he, hh, hold, hfull, hall⟩ :=
    stopped_holds w ls h hs hv hi d hd r.now hr.now hnew (blobsOf r) hr.id hr.nodup (ht.clear r.now) k
  have hfin : r.Finished w ↔ (blobsOf r).length < j := by
    rw [← hall, hkf]
  refine ⟨soFar r.now (blobsOf r) j, d', by rw [hk]; exact he, rfl, rfl, ?_, soFar_hex hr.id,
    hh, stopped_tidy h hr.now hr.id he (by simp) ht, hold, ?_⟩
  · rw [hfin]
    simp [soFar]
  · intro hf
    have hj := hfin.1 hf
    refine ⟨?_, hfull hj⟩
    simp only [soFar]
    rw [List.take_of_length_le (by omega)]

/-- Any number of runs. -/
theorem all_runs (w : Job) (ls : List (List Piece)) (h : w.OK ls) (runs : List (Run ρ)) (hr : ∀ r ∈ runs, r.OK w)
    (hord : runs.Pairwise (fun a b => a.now.seconds < b.now.seconds)) (hs : List Batch)
    (hv : ∀ b ∈ hs, b.now.valid = true) (hi : ∀ b ∈ hs, ∀ i ∈ b.ids, HexId i) (d : Disk)
    (hd : Holds w hs d.names ⟨[], ls.map (filled w.date)⟩) (ht : Tidy (ls.map (filled w.date)) d)
    (hnew : ∀ b ∈ hs, ∀ r ∈ runs, b.now.seconds < r.now.seconds) :
    ∃ hs' d', afterRuns w d runs = .ok d' ∧
      (∀ b ∈ hs', b.ignored = false ∧ (∀ i ∈ b.ids, HexId i) ∧
        ∃ r ∈ runs, b.now = r.now ∧ (b.complete = true → r.Finished w)) ∧
      Holds w (hs ++ hs') d'.names ⟨[], ls.map (filled w.date)⟩ ∧ Tidy (ls.map (filled w.date)) d' ∧
      (∀ x bytes, read d x = .ok bytes → read d' x = .ok bytes) := by
  induction runs generalizing hs d with
  | nil => exact ⟨[], d, rfl, by simp, by simpa using hd, ht, fun _ _ hx => hx⟩
  | cons r runs ih =>
    obtain ⟨hlt, hord'⟩ := List.pairwise_cons.1 hord
    have hrr := hr r (by simp)
    obtain ⟨b, d1, he1, e1, e2, e3, e4, hd1, ht1, hold1, -⟩ :=
      one_run w ls h hs hv hi d hd ht r hrr (fun b hb => hnew b hb r (by simp))
    have hv1 : ∀ b' ∈ hs ++ [b], b'.now.valid = true := by
      intro b' hb'
      rcases List.mem_append.1 hb' with hb' | hb'
      · exact hv b' hb'
      · rw [List.mem_singleton.1 hb', e1]; exact hrr.now
    have hi1 : ∀ b' ∈ hs ++ [b], ∀ i ∈ b'.ids, HexId i := by
      intro b' hb'
      rcases List.mem_append.1 hb' with hb' | hb'
      · exact hi b' hb'
      · rw [List.mem_singleton.1 hb']; exact e4
    have hnew1 : ∀ b' ∈ hs ++ [b], ∀ r' ∈ runs, b'.now.seconds < r'.now.seconds := by
      intro b' hb' r' hr'
      rcases List.mem_append.1 hb' with hb' | hb'
      · exact hnew b' hb' r' (by simp [hr'])
      · rw [List.mem_singleton.1 hb', e1]; exact hlt r' hr'
    obtain ⟨hs', d', he, h1, h2, h3, h4⟩ := ih (fun r' h' => hr r' (by simp [h'])) hord' (hs ++ [b]) hv1 hi1 d1 hd1 ht1
      hnew1
    refine ⟨b :: hs', d', by simp only [afterRuns, he1]; exact he, ?_, by simpa using h2, h3,
      fun x bytes hx => h4 x bytes (hold1 x bytes hx)⟩
    intro b' hb'
    rcases List.mem_cons.1 hb' with rfl | hb'
    · exact ⟨e2, e4, r, by simp, e1, e3.1⟩
    · obtain ⟨g1, g2, r', g3, g4⟩ := h1 b' hb'
      exact ⟨g1, g2, r', by simp [g3], g4⟩

theorem afterRuns_append (w : Job) (d : Disk) (a b : List (Run ρ)) :
    afterRuns w d (a ++ b) = match afterRuns w d a with
      | .error e => .error e
      | .ok d' => afterRuns w d' b := by
  induction a generalizing d with
  | nil => rfl
  | cons r a ih =>
    simp only [List.cons_append, afterRuns]
    cases afterRun w d r with
    | error e => rfl
    | ok d' => exact ih d'

theorem latest_unfinisheds {hs hs' : List Batch} (h : ∀ b ∈ hs', b.complete = false ∧ b.ignored = false) (t : DateTime) :
    Latest (hs ++ hs') t ↔ Latest hs t := by
  induction hs' generalizing hs with
  | nil => simp
  | cons b hs' ih =>
    rw [show hs ++ b :: hs' = hs ++ [b] ++ hs' by simp, ih (fun b' hb' => h b' (by simp [hb'])),
      latest_unfinished (h b (by simp)).1 (h b (by simp)).2]

/-- A disk on which nothing is in the way: the folder of the date has nothing in it, and there is no file
where a folder on the way to it has to be. -/
structure Fresh (folder : List Str) (d : Disk) : Prop where
  normal : ∀ q ∈ d.names, Posix.parse q.str = q
  nodup : d.names.Nodup
  file : ∀ q ∈ d.names, q.root = [] → ¬ q.comps <+: folder ∧ ¬ folder <+: q.comps
  dir : ∀ q ∈ d.dirs, q.root = [] → folder <+: q.comps → q.comps = folder

theorem Fresh.tidy {folder : List Str} {d : Disk} (h : Fresh folder d) : Tidy folder d :=
  ⟨h.nodup, fun q hq hr => (h.file q hq hr).1, fun q hq hr hp => absurd hp (h.file q hq hr).2,
    fun q hq hr hp => by rw [h.dir q hq hr hp]; omega⟩

theorem Fresh.holds {folder : List Str} {d : Disk} (h : Fresh folder d) (w : Job) : Holds w [] d.names ⟨[], folder⟩ where
  normal := h.normal
  beneath_iff q := by
    constructor
    · rintro ⟨hq, hb⟩
      simp only [beneath, Bool.and_eq_true, decide_eq_true_eq] at hb
      exact absurd (List.isPrefixOf_iff_prefix.1 hb.1.2) (h.file q hq hb.1.1).2
    · rintro ⟨b, hb, -⟩
      cases hb

/-- `C86_read_while_written`, with the names of the blobs. -/
theorem read_while_written
    -- the dataset, the day and the format
    (w : Job) (ls : List (List Piece)) (h : w.OK ls) (hb : PlainBase (w.base ls))
    (hfmt : w.format ≠ "text".toList) (rnd : Str)
    (hday : cyclePath (readerDataset w.dataset w.partitions) rnd (midnight w.date)
      = cyclePath (readerDataset w.dataset w.partitions) rnd w.date)
    -- the disk before
    (d : Disk) (hd : Fresh (ls.map (filled w.date)) d)
    -- the runs; `r` is the last that was not stopped
    (pre post : List (Run ρ)) (r : Run ρ) (hok : ∀ r' ∈ pre ++ r :: post, r'.OK w)
    (hord : (pre ++ r :: post).Pairwise (fun a b => a.now.seconds < b.now.seconds))
    (hfin : r.Finished w) (hne : r.records.filter r.config.valid ≠ []) (hpost : ∀ r' ∈ post, ¬ r'.Finished w)
    -- the libraries; no record is empty (see C70)
    (lib : Lib ρ) (hl : Faithful r.config.codec lib r.records) (ht : ∀ x ∈ r.records, lib.truthy x = true)
    -- the reader
    (now : DateTime) (freshness : Str) (prefixes : List Str) (hallow : Reader.allowed prefixes w.dataset = true)
    (hash : Str → Nat) :
    ∃ d' l, afterRuns w d (pre ++ r :: post) = .ok d' ∧ l = (blobsOf r).map (fun p => nameOf w ls r.now p.1) ∧ l ≠ [] ∧
      (∀ p ∈ blobsOf r, read d' (nameOf w ls r.now p.1) = .ok p.2) ∧
      -- the reader lists the blobs now
      Reader.openReader (dayReader w freshness prefixes) now rnd (diskBlobsAt d'.names) = .ok (0, l) ∧
      -- and fetches each of them at any time after, when later runs have taken any of their steps
      ∀ storage : Str → Except Err Bytes,
        (∀ x, ∃ later d'', (∀ r' ∈ later, r'.OK w) ∧
          (pre ++ r :: post ++ later).Pairwise (fun a b => a.now.seconds < b.now.seconds) ∧
          afterRuns w d' later = .ok d'' ∧ storage x = read d'' x) →
        delivered hash lib {} storage l = (r.records.filter r.config.valid).map .row := by
  obtain ⟨hord1, hord2, hord3⟩ := List.pairwise_append.1 hord
  obtain ⟨hord4, hord5⟩ := List.pairwise_cons.1 hord2
  have hrr := hok r (by simp)
  -- the runs before
  obtain ⟨hs1, d1, he1, g1, hd1, ht1, -⟩ := all_runs w ls h pre (fun r' h' => hok r' (by simp [h'])) hord1 []
    (by simp) (by simp) d (hd.holds w) hd.tidy (by simp)
  rw [List.nil_append] at hd1
  have hv1 : ∀ b ∈ hs1, b.now.valid = true := by
    intro b hb
    obtain ⟨-, -, r', hr', e, -⟩ := g1 b hb
    rw [e]; exact (hok r' (by simp [hr'])).now
  have hnew1 : ∀ b ∈ hs1, b.now.seconds < r.now.seconds := by
    intro b hb
    obtain ⟨-, -, r', hr', e, -⟩ := g1 b hb
    rw [e]; exact hord3 r' hr' r (by simp)
  -- the run
  obtain ⟨b, d2, he2, e1, e2, e3, e4, hd2, ht2, hold2, hfull⟩ :=
    one_run w ls h hs1 hv1 (fun b hb => (g1 b hb).2.1) d1 hd1 ht1 r hrr hnew1
  obtain ⟨hids, hread⟩ := hfull hfin
  -- the runs after
  have hv2 : ∀ b' ∈ hs1 ++ [b], b'.now.valid = true := by
    intro b' hb'
    rcases List.mem_append.1 hb' with hb' | hb'
    · exact hv1 b' hb'
    · rw [List.mem_singleton.1 hb', e1]; exact hrr.now
  have hi2 : ∀ b' ∈ hs1 ++ [b], ∀ i ∈ b'.ids, HexId i := by
    intro b' hb'
    rcases List.mem_append.1 hb' with hb' | hb'
    · exact (g1 b' hb').2.1
    · rw [List.mem_singleton.1 hb']; exact e4
  obtain ⟨hs3, d3, he3, g3, hd3, ht3, hold3⟩ := all_runs w ls h post (fun r' h' => hok r' (by simp [h'])) hord5
    (hs1 ++ [b]) hv2 hi2 d2 hd2 ht2 (by
      intro b' hb' r' hr'
      rcases List.mem_append.1 hb' with hb' | hb'
      · exact Nat.lt_trans (hnew1 b' hb') (hord4 r' hr')
      · rw [List.mem_singleton.1 hb', e1]; exact hord4 r' hr')
  have hlatest : ∀ t, Latest (hs1 ++ [b] ++ hs3) t ↔ t = b.now := by
    intro t
    rw [latest_unfinisheds, latest_finished (e3.2 hfin) e2 (by rw [e1]; exact hnew1)]
    intro b' hb'
    obtain ⟨k1, -, r', hr', -, k2⟩ := g3 b' hb'
    refine ⟨?_, k1⟩
    cases hc : b'.complete with
    | false => rfl
    | true => exact absurd (k2 hc) (hpost r' hr')
  have huniq : ∀ b' ∈ hs1 ++ [b] ++ hs3, b'.now = b.now → b' = b := by
    intro b' hb' e
    rcases List.mem_append.1 hb' with hb' | hb'
    · rcases List.mem_append.1 hb' with hb' | hb'
      · have := hnew1 b' hb'
        rw [e, e1] at this
        omega
      · exact List.mem_singleton.1 hb'
    · obtain ⟨-, -, r', hr', k, -⟩ := g3 b' hb'
      have := hord4 r' hr'
      rw [← k, e, e1] at this
      omega
  have hv3 : ∀ b' ∈ hs1 ++ [b] ++ hs3, b'.now.valid = true := by
    intro b' hb'
    rcases List.mem_append.1 hb' with hb' | hb'
    · exact hv2 b' hb'
    · obtain ⟨-, -, r', hr', k, -⟩ := g3 b' hb'
      rw [k]; exact (hok r' (by simp [hr'])).now
  have hi3 : ∀ b' ∈ hs1 ++ [b] ++ hs3, ∀ i ∈ b'.ids, HexId i := by
    intro b' hb'
    rcases List.mem_append.1 hb' with hb' | hb'
    · exact hi2 b' hb'
    · exact (g3 b' hb').2.1
  have hacc : Writer.Spec.accepted (Writer.outcomes r.config {} (r.records.map .append)) ≠ [] := by
    rw [accepted_appends]; exact hne
  -- what the run stored is there at any later time
  have hlater : ∀ later d'', (∀ r' ∈ later, r'.OK w) →
      (pre ++ r :: post ++ later).Pairwise (fun a b => a.now.seconds < b.now.seconds) →
      afterRuns w d3 later = .ok d'' → ∀ x bytes, read d3 x = .ok bytes → read d'' x = .ok bytes := by
    intro later d'' hok4 hord6 he4
    obtain ⟨hord7, hord8, hord9⟩ := List.pairwise_append.1 hord6
    obtain ⟨hs4, d4, he5, -, -, -, hold4⟩ := all_runs w ls h later hok4 hord8 (hs1 ++ [b] ++ hs3) hv3 hi3 d3 hd3 ht3 (by
      intro b' hb' r' hr'
      rcases List.mem_append.1 hb' with hb' | hb'
      · rcases List.mem_append.1 hb' with hb' | hb'
        · exact Nat.lt_trans (hnew1 b' hb') (hord9 r (by simp) r' hr')
        · rw [List.mem_singleton.1 hb', e1]; exact hord9 r (by simp) r' hr'
      · obtain ⟨-, -, r'', hr'', k, -⟩ := g3 b' hb'
        rw [k]; exact hord9 r'' (by simp [hr'']) r' hr')
    rw [he4] at he5
    cases he5
    exact hold4
  -- the listing does not depend on what is fetched
  have hcore := fun storage hst => read_core w ls h hb hfmt rnd hday r.config hrr.format lib
    (r.records.map .append) (hl.mono (fun x hx => (List.mem_filter.1 (by rwa [accepted_appends] at hx)).1)) (fun x hx => ht x (List.mem_filter.1 (by rwa [accepted_appends] at hx)).1) hacc b
    (by rw [hids, ← blobsOf_snd hfin.1.1]; simp)
    (by
      intro i hi
      rw [hids] at hi
      obtain ⟨p, hp, rfl⟩ := List.mem_map.1 hi
      exact (hrr.id p hp).2)
    (by rw [hids]; exact hrr.pairwise)
    (hs1 ++ [b] ++ hs3) (by simp) hlatest huniq hv3 hi3 d3.names ht3.nodup (by rw [cyclePath_eq h rnd]; exact hd3)
    storage hst now freshness prefixes hallow hash
  have hst3 : ∀ p ∈ b.ids.zip (writtenBlobs r.config (r.records.map .append)), ∀ x,
      batchBlob w.dataset w.partitions (asAtName b.now) w.date w.rnd w.format p.1 = .ok x → read d3 x = .ok p.2 := by
    intro p hp x hx
    rw [e1, batchBlob_eq h hrr.now] at hx
    cases hx
    refine hold3 _ _ (hread p ?_)
    rw [hids, ← blobsOf_snd hfin.1.1] at hp
    have : ((blobsOf r).map Prod.fst).zip ((blobsOf r).map Prod.snd) = blobsOf r := by
      rw [List.zip_map']
      exact List.map_id' _
    rw [this] at hp
    exact hp
  obtain ⟨l, hl1, hl3, hl4, -⟩ := hcore (read d3) hst3
  refine ⟨d3, l, ?_, by rw [hl3, hids, e1, List.map_map]; rfl, hl4, fun p hp => hold3 _ _ (hread p hp), hl1, ?_⟩
  · rw [afterRuns_append, he1]
    simp only [afterRuns, he2]
    exact he3
  · intro storage hsto
    obtain ⟨l', hl1', -, -, hl2'⟩ := hcore storage (by
      intro p hp x hx
      obtain ⟨later, d'', k1, k2, k3, k4⟩ := hsto x
      rw [k4]
      exact hlater later d'' k1 k2 k3 x p.2 (hst3 p hp x hx))
    rw [hl1] at hl1'
    cases hl1'
    rw [hl2', accepted_appends]

/-- **C86.**  The same, with the writers still at work: after the reader has listed the blobs, later runs may
start, and each blob may be fetched when any number of later runs have taken any number of their steps.  What
is delivered is the same. -/
theorem C86_read_while_written
    -- the dataset, the day and the format
    (w : Job) (ls : List (List Piece)) (h : w.OK ls) (hb : PlainBase (w.base ls))
    (hfmt : w.format ≠ "text".toList) (rnd : Str)
    (hday : cyclePath (readerDataset w.dataset w.partitions) rnd (midnight w.date)
      = cyclePath (readerDataset w.dataset w.partitions) rnd w.date)
    -- the disk before
    (d : Disk) (hd : Fresh (ls.map (filled w.date)) d)
    -- the runs; `r` is the last that was not stopped
    (pre post : List (Run ρ)) (r : Run ρ) (hok : ∀ r' ∈ pre ++ r :: post, r'.OK w)
    (hord : (pre ++ r :: post).Pairwise (fun a b => a.now.seconds < b.now.seconds))
    (hfin : r.Finished w) (hne : r.records.filter r.config.valid ≠ []) (hpost : ∀ r' ∈ post, ¬ r'.Finished w)
    -- the libraries; no record is empty (see C70)
    (lib : Lib ρ) (hl : Faithful r.config.codec lib r.records) (ht : ∀ x ∈ r.records, lib.truthy x = true)
    -- the reader
    (now : DateTime) (freshness : Str) (prefixes : List Str) (hallow : Reader.allowed prefixes w.dataset = true)
    (hash : Str → Nat) :
    ∃ d' l, afterRuns w d (pre ++ r :: post) = .ok d' ∧
      -- the reader lists the blobs now
      Reader.openReader (dayReader w freshness prefixes) now rnd (diskBlobsAt d'.names) = .ok (0, l) ∧
      -- and fetches each of them at any time after, when later runs have taken any of their steps
      ∀ storage : Str → Except Err Bytes,
        (∀ x, ∃ later d'', (∀ r' ∈ later, r'.OK w) ∧
          (pre ++ r :: post ++ later).Pairwise (fun a b => a.now.seconds < b.now.seconds) ∧
          afterRuns w d' later = .ok d'' ∧ storage x = read d'' x) →
        delivered hash lib {} storage l = (r.records.filter r.config.valid).map .row := by
  obtain ⟨d', l, h1, -, -, -, h2, h3⟩ := read_while_written w ls h hb hfmt rnd hday d hd pre post r hok hord hfin hne hpost lib
    hl ht now freshness prefixes hallow hash
  exact ⟨d', l, h1, h2, h3⟩

/-- **C86.**  Any number of runs of a batch writer, one after the other, write to a disk; each appends any
records, and then finalizes, or reports a failure (`finalize(has_failure=True)`) and makes any calls after that, or drops its
writer without either; and each may die after any of its steps on the disk.  Then a reader for that dataset
and day delivers exactly the records that were valid for the last run that finalized and was not stopped, each once, in
the order they were appended. -/
theorem C86_last_finished_is_read
    -- the dataset, the day and the format
    (w : Job) (ls : List (List Piece)) (h : w.OK ls) (hb : PlainBase (w.base ls))
    (hfmt : w.format ≠ "text".toList) (rnd : Str)
    (hday : cyclePath (readerDataset w.dataset w.partitions) rnd (midnight w.date)
      = cyclePath (readerDataset w.dataset w.partitions) rnd w.date)
    -- the disk before
    (d : Disk) (hd : Fresh (ls.map (filled w.date)) d)
    -- the runs; `r` is the last that was not stopped
    (pre post : List (Run ρ)) (r : Run ρ) (hok : ∀ r' ∈ pre ++ r :: post, r'.OK w)
    (hord : (pre ++ r :: post).Pairwise (fun a b => a.now.seconds < b.now.seconds))
    (hfin : r.Finished w) (hne : r.records.filter r.config.valid ≠ []) (hpost : ∀ r' ∈ post, ¬ r'.Finished w)
    -- the libraries; no record is empty (see C70)
    (lib : Lib ρ) (hl : Faithful r.config.codec lib r.records) (ht : ∀ x ∈ r.records, lib.truthy x = true)
    -- the reader
    (now : DateTime) (freshness : Str) (prefixes : List Str) (hallow : Reader.allowed prefixes w.dataset = true)
    (hash : Str → Nat) :
    ∃ d' l, afterRuns w d (pre ++ r :: post) = .ok d' ∧
      Reader.openReader (dayReader w freshness prefixes) now rnd (diskBlobsAt d'.names) = .ok (0, l) ∧
      delivered hash lib {} (read d') l = (r.records.filter r.config.valid).map .row := by
  obtain ⟨d', l, h1, h2, h3⟩ := C86_read_while_written w ls h hb hfmt rnd hday d hd pre post r hok hord hfin hne hpost lib hl
    ht now freshness prefixes hallow hash
  exact ⟨d', l, h1, h2, h3 (read d') (fun x => ⟨[], d', by simp, by simpa using hord, rfl, rfl⟩)⟩

/-- A day with nothing that is to be read. -/
theorem no_data (w : Job) (ls : List (List Piece)) (h : w.OK ls) (rnd : Str)
    (hday : cyclePath (readerDataset w.dataset w.partitions) rnd (midnight w.date)
      = cyclePath (readerDataset w.dataset w.partitions) rnd w.date) (d1 : Disk) {cl : List Str}
    (hcl : cycleBlobs none (diskBlobsAt d1.names ⟨[], ls.map (filled w.date)⟩) = .ok cl) (hnil : cl = [])
    (now : DateTime) (freshness : Str) (hfr : parseDelta freshness ≤ 1) (prefixes : List Str)
    (hallow : Reader.allowed prefixes w.dataset = true) :
    Reader.openReader (dayReader w freshness prefixes) now rnd (diskBlobsAt d1.names) = .error .dataNotFound := by
  have hp := cyclePath_eq h rnd
  have hlist : listBlobs (readerDataset w.dataset w.partitions) rnd none (diskBlobsAt d1.names) [midnight w.date]
      = .ok [] := by
    unfold listBlobs visited
    simp only [List.map_cons, List.map_nil, hday, hp, dedup, List.filter_nil, List.mapM_cons, List.mapM_nil, hcl, hnil]
    simp [pure, Except.pure, bind, Except.bind, sorted]
  have hlst := listing_day w freshness prefixes now rnd (diskBlobsAt d1.names)
  rw [hlist] at hlst
  have hfl : Reader.freshnessLimit (dayReader w freshness prefixes) now = .ok (parseDelta freshness) := by
    unfold Reader.freshnessLimit
    have : readerDates now (dayReader w freshness prefixes).start (dayReader w freshness prefixes).stop
        = (midnight w.date, midnight w.date) := by
      show (if (midnight w.date).le (midnight w.date) then _ else _) = _
      rw [if_pos (by simp [DateTime.le])]
      rfl
    rw [this]
    simp [dayReader]
  unfold Reader.openReader
  have ha : Reader.allowed (dayReader w freshness prefixes).prefixes (dayReader w freshness prefixes).dataset
      = true := hallow
  rw [ha, hfl]
  simp only [Bool.not_true, Bool.false_eq_true, if_false]
  unfold chooseBlobs
  rw [hlst]
  simp only [if_neg (show ¬ parseDelta freshness > 1 by omega), List.filter_nil, if_true]

/-- **C86.**  As long as no run has come to its end, a reader for that dataset and day says that there is no
data, whatever parts of blobs the runs have left on the disk. -/
theorem C86_unfinished_is_not_read
    (w : Job) (ls : List (List Piece)) (h : w.OK ls) (hb : PlainBase (w.base ls)) (rnd : Str)
    (hday : cyclePath (readerDataset w.dataset w.partitions) rnd (midnight w.date)
      = cyclePath (readerDataset w.dataset w.partitions) rnd w.date)
    (d : Disk) (hd : Fresh (ls.map (filled w.date)) d)
    (runs : List (Run ρ)) (hok : ∀ r' ∈ runs, r'.OK w)
    (hord : runs.Pairwise (fun a b => a.now.seconds < b.now.seconds))
    (hnone : ∀ r' ∈ runs, ¬ r'.Finished w)
    (now : DateTime) (freshness : Str) (hfr : parseDelta freshness ≤ 1) (prefixes : List Str)
    (hallow : Reader.allowed prefixes w.dataset = true) :
    ∃ d', afterRuns w d runs = .ok d' ∧
      Reader.openReader (dayReader w freshness prefixes) now rnd (diskBlobsAt d'.names) = .error .dataNotFound := by
  obtain ⟨hs1, d1, he1, g1, hd1, ht1, -⟩ := all_runs w ls h runs hok hord []
    (by simp) (by simp) d (hd.holds w) hd.tidy (by simp)
  rw [List.nil_append] at hd1
  refine ⟨d1, he1, ?_⟩
  have hv1 : ∀ b ∈ hs1, b.now.valid = true := by
    intro b hb
    obtain ⟨-, -, r', hr', e, -⟩ := g1 b hb
    rw [e]; exact (hok r' hr').now
  obtain ⟨cl, hcl, hclx⟩ := cycle_history h hb hv1 (fun b hb => (g1 b hb).2.1) hd1
  have hnil : cl = [] := by
    rw [List.eq_nil_iff_forall_not_mem]
    intro x hx
    obtain ⟨t, ht, -⟩ := (hclx x).1 hx
    obtain ⟨b, hbm, -, hc⟩ := ht.complete
    obtain ⟨-, -, r', hr', -, k⟩ := g1 b hbm
    exact hnone r' hr' (k hc)
  exact no_data w ls h rnd hday d1 hcl hnil now freshness hfr prefixes hallow

/-- **C86.**  If the last run that came to its end had no valid record (and is marked complete all the same, as
`always_complete` asks), a reader for that dataset and day says that there is no data, whatever earlier runs have stored. -/
theorem C86_empty_run
    (w : Job) (ls : List (List Piece)) (h : w.OK ls) (hb : PlainBase (w.base ls)) (rnd : Str)
    (hday : cyclePath (readerDataset w.dataset w.partitions) rnd (midnight w.date)
      = cyclePath (readerDataset w.dataset w.partitions) rnd w.date)
    (d : Disk) (hd : Fresh (ls.map (filled w.date)) d)
    (pre post : List (Run ρ)) (r : Run ρ) (hok : ∀ r' ∈ pre ++ r :: post, r'.OK w)
    (hord : (pre ++ r :: post).Pairwise (fun a b => a.now.seconds < b.now.seconds))
    (hfin : r.Finished w) (hnil : r.records.filter r.config.valid = []) (hpost : ∀ r' ∈ post, ¬ r'.Finished w)
    (now : DateTime) (freshness : Str) (hfr : parseDelta freshness ≤ 1) (prefixes : List Str)
    (hallow : Reader.allowed prefixes w.dataset = true) :
    ∃ d', afterRuns w d (pre ++ r :: post) = .ok d' ∧
      Reader.openReader (dayReader w freshness prefixes) now rnd (diskBlobsAt d'.names) = .error .dataNotFound := by
  obtain ⟨hord1, hord2, hord3⟩ := List.pairwise_append.1 hord
  obtain ⟨hord4, hord5⟩ := List.pairwise_cons.1 hord2
  have hrr := hok r (by simp)
  -- the runs before
  obtain ⟨hs1, d1, he1, g1, hd1, ht1, -⟩ := all_runs w ls h pre (fun r' h' => hok r' (by simp [h'])) hord1 []
    (by simp) (by simp) d (hd.holds w) hd.tidy (by simp)
  rw [List.nil_append] at hd1
  have hv1 : ∀ b ∈ hs1, b.now.valid = true := by
    intro b hb
    obtain ⟨-, -, r', hr', e, -⟩ := g1 b hb
    rw [e]; exact (hok r' (by simp [hr'])).now
  have hnew1 : ∀ b ∈ hs1, b.now.seconds < r.now.seconds := by
    intro b hb
    obtain ⟨-, -, r', hr', e, -⟩ := g1 b hb
    rw [e]; exact hord3 r' hr' r (by simp)
  -- the run
  obtain ⟨b, d2, he2, e1, e2, e3, e4, hd2, ht2, hold2, hfull⟩ :=
    one_run w ls h hs1 hv1 (fun b hb => (g1 b hb).2.1) d1 hd1 ht1 r hrr hnew1
  obtain ⟨hids, hread⟩ := hfull hfin
  -- the runs after
  have hv2 : ∀ b' ∈ hs1 ++ [b], b'.now.valid = true := by
    intro b' hb'
    rcases List.mem_append.1 hb' with hb' | hb'
    · exact hv1 b' hb'
    · rw [List.mem_singleton.1 hb', e1]; exact hrr.now
  have hi2 : ∀ b' ∈ hs1 ++ [b], ∀ i ∈ b'.ids, HexId i := by
    intro b' hb'
    rcases List.mem_append.1 hb' with hb' | hb'
    · exact (g1 b' hb').2.1
    · rw [List.mem_singleton.1 hb']; exact e4
  obtain ⟨hs3, d3, he3, g3, hd3, ht3, hold3⟩ := all_runs w ls h post (fun r' h' => hok r' (by simp [h'])) hord5
    (hs1 ++ [b]) hv2 hi2 d2 hd2 ht2 (by
      intro b' hb' r' hr'
      rcases List.mem_append.1 hb' with hb' | hb'
      · exact Nat.lt_trans (hnew1 b' hb') (hord4 r' hr')
      · rw [List.mem_singleton.1 hb', e1]; exact hord4 r' hr')
  have hlatest : ∀ t, Latest (hs1 ++ [b] ++ hs3) t ↔ t = b.now := by
    intro t
    rw [latest_unfinisheds, latest_finished (e3.2 hfin) e2 (by rw [e1]; exact hnew1)]
    intro b' hb'
    obtain ⟨k1, -, r', hr', -, k2⟩ := g3 b' hb'
    refine ⟨?_, k1⟩
    cases hc : b'.complete with
    | false => rfl
    | true => exact absurd (k2 hc) (hpost r' hr')
  have huniq : ∀ b' ∈ hs1 ++ [b] ++ hs3, b'.now = b.now → b' = b := by
    intro b' hb' e
    rcases List.mem_append.1 hb' with hb' | hb'
    · rcases List.mem_append.1 hb' with hb' | hb'
      · have := hnew1 b' hb'
        rw [e, e1] at this
        omega
      · exact List.mem_singleton.1 hb'
    · obtain ⟨-, -, r', hr', k, -⟩ := g3 b' hb'
      have := hord4 r' hr'
      rw [← k, e, e1] at this
      omega
  have hv3 : ∀ b' ∈ hs1 ++ [b] ++ hs3, b'.now.valid = true := by
    intro b' hb'
    rcases List.mem_append.1 hb' with hb' | hb'
    · exact hv2 b' hb'
    · obtain ⟨-, -, r', hr', k, -⟩ := g3 b' hb'
      rw [k]; exact (hok r' (by simp [hr'])).now
  have hi3 : ∀ b' ∈ hs1 ++ [b] ++ hs3, ∀ i ∈ b'.ids, HexId i := by
    intro b' hb'
    rcases List.mem_append.1 hb' with hb' | hb'
    · exact hi2 b' hb'
    · exact (g3 b' hb').2.1
  have hids' : b.ids = [] := by
    rw [hids, blobsOf_none hfin.1.1 hnil]
    rfl
  refine ⟨d3, ?_, ?_⟩
  · rw [afterRuns_append, he1]
    simp only [afterRuns, he2]
    exact he3
  · obtain ⟨cl, hcl, hclx⟩ := cycle_history h hb hv3 hi3 hd3
    refine no_data w ls h rnd hday d3 hcl ?_ now freshness hfr prefixes hallow
    rw [List.eq_nil_iff_forall_not_mem]
    intro x hx
    obtain ⟨t, ht, b', hb', e, i, hi, -⟩ := (hclx x).1 hx
    rw [(hlatest t).1 ht] at e
    rw [huniq b' hb' e, hids'] at hi
    cases hi

/-! ### A concrete history -/

/-- Names that ascend, as they do when blobs are stored one after the other. -/
def demoIds : Nat → Str := fun n => ("0123456789".toList[n]?.getD '9') :: "a-1".toList

/-- Four runs: one that comes to its end, one stopped in its first blob, one that comes to its end, one
stopped in its last blob. -/
def run1 : Run (Fin 10) := ⟨⟨2024, 3, 1, 10, 0, 0⟩, zConfig, [4, 7], demoIds, 1000, .finalized⟩
def run2 : Run (Fin 10) := ⟨⟨2024, 3, 1, 11, 0, 0⟩, zConfig, [5, 5, 5], demoIds, 9, .finalized⟩
def run3 : Run (Fin 10) := ⟨⟨2024, 3, 1, 11, 30, 0⟩, zConfig, [1, 2, 7, 3], demoIds, 1000, .finalized⟩
def run4 : Run (Fin 10) := ⟨⟨2024, 3, 1, 12, 0, 0⟩, zConfig, [6, 6, 6], demoIds, 20, .finalized⟩

def demoStart : Disk := ⟨[], [Posix.parse "tests/other/file.txt".toList], fun _ => [1]⟩

theorem demo_fresh : Fresh (demoFolders.map (filled zJob.date)) demoStart where
  normal := by decide +kernel
  nodup := by decide +kernel
  file := by
    have : ∀ q ∈ demoStart.names, q.comps.isPrefixOf (demoFolders.map (filled zJob.date)) = false ∧
        (demoFolders.map (filled zJob.date)).isPrefixOf q.comps = false := by decide +kernel
    intro q hq _
    obtain ⟨h1, h2⟩ := this q hq
    constructor
    · intro hp
      rw [List.isPrefixOf_iff_prefix.2 hp] at h1
      cases h1
    · intro hp
      rw [List.isPrefixOf_iff_prefix.2 hp] at h2
      cases h2
  dir := nofun

theorem demo_run_ok (r : Run (Fin 10)) (hm : r ∈ [run1, run2, run3, run4]) : r.OK zJob := by
  have hc : ∀ r ∈ [run1, run2, run3, run4], r.now.valid = true ∧ r.count ≤ 2 ∧
      r.records.filter r.config.valid ≠ [] := by decide +kernel
  have hi : ∀ r ∈ [run1, run2, run3, run4], r.ids = demoIds ∧ r.config = zConfig := by
    intro r hr
    simp only [List.mem_cons, List.not_mem_nil, or_false] at hr
    rcases hr with rfl | rfl | rfl | rfl <;> exact ⟨rfl, rfl⟩
  have hhex : ∀ n < 2, HexId (demoIds n) ∧ demoIds n ≠ [] := by unfold HexId; decide +kernel
  have hord : ∀ m < 2, ∀ n < m, (demoIds n).length = (demoIds m).length ∧ demoIds n < demoIds m := by decide +kernel
  obtain ⟨c1, c2, c3⟩ := hc r hm
  obtain ⟨i1, i2⟩ := hi r hm
  refine ⟨c1, by rw [i2]; rfl, ?_, ?_⟩
  · intro n hn
    rw [i1]
    exact hhex n (by omega)
  · intro n m hnm hm'
    rw [i1]
    exact hord m (by omega) n hnm

/-- Whether a run comes to its end, computed. -/
def ended (w : Job) (r : Run ρ) : Bool :=
  (r.ops w).toOption.any (fun ops => decide (ops.length ≤ r.stop))

theorem ended_iff {w : Job} {r : Run ρ} (hne : r.Marks) :
    r.Finished w ↔ ended w r = true := by
  unfold Run.Finished ended
  cases r.ops w with
  | error e => simp [Except.toOption]
  | ok ops => simp [Except.toOption, hne]

/-- Non-vacuity: every hypothesis of `C86_last_finished_is_read` holds of these four runs. -/
example : ∃ d' l, afterRuns zJob demoStart [run1, run2, run3, run4] = .ok d' ∧
    Reader.openReader (dayReader zJob "2d".toList ["tests/".toList]) ⟨2024, 5, 5, 0, 0, 0⟩ [] (diskBlobsAt d'.names)
      = .ok (0, l) ∧
    delivered (fun _ => 0) demoLib' {} (read d') l = [.row 1, .row 2, .row 3] :=
  C86_last_finished_is_read zJob demoFolders zJob_ok demo_base (by decide) [] rfl demoStart demo_fresh
    [run1, run2] [run4] run3 demo_run_ok (by decide +kernel) ((ended_iff ⟨rfl, Or.inl (by decide)⟩).2 (by decide +kernel)) (by decide)
    (by
      intro r hr
      rw [List.mem_singleton.1 hr, ended_iff ⟨rfl, Or.inl (by decide)⟩]
      decide +kernel)
    demoLib' (demo_faithful _) (fun _ _ => rfl) ⟨2024, 5, 5, 0, 0, 0⟩ "2d".toList ["tests/".toList] (by decide) (fun _ => 0)

/-- Non-vacuity: two runs that are stopped leave files, but no data. -/
example : (afterRuns zJob demoStart [run2, run4]).toOption.map (fun d => d.names.length) = some 4 ∧
    ∃ d', afterRuns zJob demoStart [run2, run4] = .ok d' ∧
    Reader.openReader (dayReader zJob [] ["tests/".toList]) ⟨2024, 5, 5, 0, 0, 0⟩ [] (diskBlobsAt d'.names)
      = .error .dataNotFound :=
  ⟨by decide +kernel,
  C86_unfinished_is_not_read zJob demoFolders zJob_ok demo_base [] rfl demoStart demo_fresh
    [run2, run4] (fun r hr => demo_run_ok r (by
      simp only [List.mem_cons, List.not_mem_nil, or_false] at hr ⊢
      rcases hr with rfl | rfl <;> simp)) (by decide +kernel)
    (by
      intro r hr
      simp only [List.mem_cons, List.not_mem_nil, or_false] at hr
      rcases hr with rfl | rfl <;> rw [ended_iff ⟨rfl, Or.inl (by decide)⟩] <;> decide +kernel)
    ⟨2024, 5, 5, 0, 0, 0⟩ [] (by decide +kernel) ["tests/".toList] (by decide)⟩

/-- A run of which no record is valid, and that is to be marked complete all the same. -/
def emptyRun : Run (Fin 10) := ⟨⟨2024, 3, 1, 12, 30, 0⟩, { zConfig with alwaysComplete := true }, [7, 7], demoIds, 1000, .finalized⟩

theorem empty_run_ok : emptyRun.OK zJob := by
  have : emptyRun.count = 0 := by decide +kernel
  exact ⟨by decide, rfl, fun n hn => by omega, fun n m _ hm => by omega⟩

/-- Non-vacuity: after a run that stored three records, one that had none to store and is marked complete. -/
example : ∃ d', afterRuns zJob demoStart [run1, run3, emptyRun] = .ok d' ∧
    Reader.openReader (dayReader zJob [] ["tests/".toList]) ⟨2024, 5, 5, 0, 0, 0⟩ [] (diskBlobsAt d'.names)
      = .error .dataNotFound :=
  C86_empty_run zJob demoFolders zJob_ok demo_base [] rfl demoStart demo_fresh [run1, run3] [] emptyRun
    (by
      intro r hr
      simp only [List.cons_append, List.nil_append, List.mem_cons, List.not_mem_nil, or_false] at hr
      rcases hr with rfl | rfl | rfl
      · exact demo_run_ok _ (by simp)
      · exact demo_run_ok _ (by simp)
      · exact empty_run_ok)
    (by decide +kernel) ((ended_iff ⟨rfl, Or.inr rfl⟩).2 (by decide +kernel)) (by decide) (by simp)
    ⟨2024, 5, 5, 0, 0, 0⟩ [] (by decide +kernel) ["tests/".toList] (by decide)

/-- A run that reports a failure, and then goes on: it appends more and finalizes. -/
def failedRun : Run (Fin 10) :=
  ⟨⟨2024, 3, 1, 12, 0, 0⟩, zConfig, [6, 6, 6], demoIds, 1000, .failed [.append 8, .finalize false]⟩

/-- A run that drops its writer without finalizing. -/
def droppedRun : Run (Fin 10) := ⟨⟨2024, 3, 1, 13, 0, 0⟩, zConfig, [6, 6, 6], demoIds, 1000, .dropped⟩

/-- Non-vacuity: both have stored all their records, but neither comes to its end; the records of the run before are read. -/
example : failedRun.count = 3 ∧ droppedRun.count = 2 ∧
    ∃ d' l, afterRuns zJob demoStart [run1, run3, failedRun, droppedRun] = .ok d' ∧
    Reader.openReader (dayReader zJob "2d".toList ["tests/".toList]) ⟨2024, 5, 5, 0, 0, 0⟩ [] (diskBlobsAt d'.names)
      = .ok (0, l) ∧
    delivered (fun _ => 0) demoLib' {} (read d') l = [.row 1, .row 2, .row 3] := by
  have c1 : failedRun.count = 3 := by decide +kernel
  have c2 : droppedRun.count = 2 := by decide +kernel
  have hhex : ∀ n < 3, HexId (demoIds n) ∧ demoIds n ≠ [] := by unfold HexId; decide +kernel
  have hord : ∀ m < 3, ∀ n < m, (demoIds n).length = (demoIds m).length ∧ demoIds n < demoIds m := by decide +kernel
  refine ⟨c1, c2, C86_last_finished_is_read zJob demoFolders zJob_ok demo_base (by decide) [] rfl demoStart demo_fresh
    [run1] [failedRun, droppedRun] run3 ?_ (by decide +kernel) ((ended_iff ⟨rfl, Or.inl (by decide)⟩).2 (by decide +kernel))
    (by decide) ?_
    demoLib' (demo_faithful _) (fun _ _ => rfl) ⟨2024, 5, 5, 0, 0, 0⟩ "2d".toList ["tests/".toList] (by decide) (fun _ => 0)⟩
  · intro r hr
    simp only [List.cons_append, List.nil_append, List.mem_cons, List.not_mem_nil, or_false] at hr
    rcases hr with rfl | rfl | rfl | rfl
    · exact demo_run_ok _ (by simp)
    · exact demo_run_ok _ (by simp)
    · exact ⟨by decide, rfl, fun n hn => hhex n (by omega), fun n m hnm hm => hord m (by omega) n hnm⟩
    · exact ⟨by decide, rfl, fun n hn => hhex n (by omega), fun n m hnm hm => hord m (by omega) n hnm⟩
  · intro r hr hf
    simp only [List.mem_cons, List.not_mem_nil, or_false] at hr
    rcases hr with rfl | rfl
    · exact absurd hf.1.1 (by simp [failedRun])
    · exact absurd hf.1.1 (by simp [droppedRun])

/-! ## What does not hold -/

/-- A run in the same second as `run3`. -/
def sameSecond : Run (Fin 10) := ⟨run3.now, zConfig, [4], fun n => 'b' :: demoIds n, 10, .finalized⟩

/-- **The times of runs have to differ by a second**: a run in the same second as one that came to its end
needs not come to its end itself: what it has stored when it is stopped is read, beside the other's. -/
theorem C86_same_second_fails : sameSecond.OK zJob ∧ ¬ sameSecond.Finished zJob ∧
    ∃ d' l, afterRuns zJob demoStart [run3, sameSecond] = .ok d' ∧
      Reader.openReader (dayReader zJob [] ["tests/".toList]) ⟨2024, 5, 5, 0, 0, 0⟩ [] (diskBlobsAt d'.names)
        = .ok (0, l) ∧
      delivered (fun _ => 0) demoLib' {} (read d') l = [.row 1, .row 2, .row 3, .row 4] := by
  refine ⟨⟨by decide +kernel, rfl, ?_, ?_⟩, ?_, ?_⟩
  · have : ∀ n < sameSecond.count, HexId (sameSecond.ids n) ∧ sameSecond.ids n ≠ [] := by
      unfold HexId; decide +kernel
    exact this
  · intro n m hnm hm
    have : sameSecond.count = 1 := by decide +kernel
    omega
  · rw [ended_iff ⟨rfl, Or.inl (by decide +kernel)⟩]
    decide +kernel
  · have key : ((afterRuns zJob demoStart [run3, sameSecond]).toOption.bind (fun d' =>
        (Reader.openReader (dayReader zJob [] ["tests/".toList]) ⟨2024, 5, 5, 0, 0, 0⟩ []
          (diskBlobsAt d'.names)).toOption.map (fun kl => (kl.1, delivered (fun _ => 0) demoLib' {} (read d') kl.2))))
        = some (0, [.row 1, .row 2, .row 3, .row 4]) := by decide +kernel
    cases hd : afterRuns zJob demoStart [run3, sameSecond] with
    | error e => rw [hd] at key; cases key
    | ok d' =>
      rw [hd] at key
      simp only [Except.toOption, Option.bind_some] at key
      cases hl : Reader.openReader (dayReader zJob [] ["tests/".toList]) ⟨2024, 5, 5, 0, 0, 0⟩ []
          (diskBlobsAt d'.names) with
      | error e => rw [hl] at key; cases key
      | ok kl =>
        rw [hl] at key
        simp only [Option.map_some, Option.some.injEq, Prod.mk.injEq] at key
        obtain ⟨k, l⟩ := kl
        obtain ⟨rfl, key⟩ := key
        exact ⟨d', l, rfl, hl, key⟩

end Mabel.History
