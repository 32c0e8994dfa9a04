import Verif.Lemmas.Disk
import Verif.Props.Naming

/-!
# Properties of blobs on a disk: C84
-/

namespace Mabel.Disk
open Mabel.Py Mabel.Paths Mabel.Naming Mabel.Listing Mabel.Spec

/-- The steps of storing a blob, of a name with folders and an extension. -/
theorem commitOps_file {bucket : Str} {folders : List Str} {stem ext : Str} (hb : Comp bucket)
    (hf : ∀ f ∈ folders, Comp f) (hne : folders ≠ []) (hs : stem ≠ []) (hs' : '/' ∉ stem)
    (he : ext ≠ []) (he' : '/' ∉ ext) (hdot : '.' ∉ ext) (bytes : Bytes) :
    commitOps (join ['/'] (bucket :: folders ++ [stem ++ '.' :: ext])) bytes
      = .ok (blobOps (bucket :: folders) (stem ++ '.' :: ext) bytes) := by
  have hc : ∀ c ∈ bucket :: folders, Comp c := by
    intro c hc
    rcases List.mem_cons.1 hc with rfl | hc
    · exact hb
    · exact hf c hc
  have hn : Comp (stem ++ '.' :: ext) := by
    refine ⟨by simp, ?_, ?_⟩
    · intro h
      have := congrArg List.length h
      have h1 : 0 < stem.length := List.length_pos_iff.2 hs
      simp at this
      omega
    · simp [hs', he']
  have hp : Posix.parse (join ['/'] (bucket :: folders ++ [stem ++ '.' :: ext]))
      = ⟨[], bucket :: folders ++ [stem ++ '.' :: ext]⟩ := by
    apply parse_join (by simp)
    intro c hm
    rcases List.mem_append.1 hm with hm | hm
    · exact hc c hm
    · rw [List.mem_singleton.1 hm]; exact hn
  have hd : Posix.parse (bucket ++ ['/'] ++ (join ['/'] folders ++ ['/'])) = ⟨[], bucket :: folders⟩ := by
    have : bucket ++ ['/'] ++ (join ['/'] folders ++ ['/']) = join ['/'] (bucket :: folders) ++ ['/'] := by
      rw [join_cons _ _ hne]; simp
    rw [this]
    exact parse_slash (by simp) hc
  unfold commitOps
  rw [C52_parts_file bucket folders stem ext hb hf hne hs hs' he he' hdot]
  simp only [hd, hp]
  rfl

/-- There is nothing in the way of storing blobs in a folder: none of the folders on the way is the name of
a file, and the folder has no folders in it. -/
structure Clear (d : Disk) (cs : List Str) : Prop where
  noFile : ∀ q ∈ d.names, q.root = [] → ¬ q.comps <+: cs
  noDir : ∀ q ∈ d.dirs, q.root = [] → ¬ (cs <+: q.comps ∧ cs ≠ q.comps)

theorem Clear.room {d : Disk} {cs : List Str} (h : Clear d cs) : Room d cs where
  noFile n hm := h.noFile _ hm rfl (List.take_prefix _ _)
  noDir n hm := h.noDir _ hm rfl ⟨List.prefix_append _ _, by simp⟩

/-- **C84**: storing a blob stores it: the disk then has the blob under its name, with all its bytes, and
every other file as it was. -/
theorem C84_stored (d : Disk) (bucket : Str) (folders : List Str) (stem ext : Str) (hb : Comp bucket)
    (hf : ∀ f ∈ folders, Comp f) (hne : folders ≠ []) (hs : stem ≠ []) (hs' : '/' ∉ stem)
    (he : ext ≠ []) (he' : '/' ∉ ext) (hdot : '.' ∉ ext) (hcl : Clear d (bucket :: folders)) (bytes : Bytes) :
    ∃ d', commit d (join ['/'] (bucket :: folders ++ [stem ++ '.' :: ext])) bytes = .ok d' ∧
      read d' (join ['/'] (bucket :: folders ++ [stem ++ '.' :: ext])) = .ok bytes ∧
      ∀ other, Posix.parse other ≠ Posix.parse (join ['/'] (bucket :: folders ++ [stem ++ '.' :: ext])) →
        read d' other = read d other := by
  have hc : ∀ c ∈ bucket :: folders, Comp c := by
    intro c hc
    rcases List.mem_cons.1 hc with rfl | hc
    · exact hb
    · exact hf c hc
  have hn : Comp (stem ++ '.' :: ext) := by
    refine ⟨by simp, ?_, ?_⟩
    · intro h
      have := congrArg List.length h
      have h1 : 0 < stem.length := List.length_pos_iff.2 hs
      simp at this
      omega
    · simp [hs', he']
  have hp : Posix.parse (join ['/'] (bucket :: folders ++ [stem ++ '.' :: ext]))
      = ⟨[], bucket :: folders ++ [stem ++ '.' :: ext]⟩ := by
    apply parse_join (by simp)
    intro c hm
    rcases List.mem_append.1 hm with hm | hm
    · exact hc c hm
    · rw [List.mem_singleton.1 hm]; exact hn
  have hl := blobOps_length (bucket :: folders) (stem ++ '.' :: ext) bytes
  obtain ⟨d', h1, _, hcase⟩ := commit_run hcl.room (stem ++ '.' :: ext) bytes
    (blobOps (bucket :: folders) (stem ++ '.' :: ext) bytes).length
  rw [List.take_length] at h1
  rcases hcase with ⟨h0, _⟩ | ⟨_, h2, h3, h4⟩
  · omega
  refine ⟨d', ?_, ?_, ?_⟩
  · unfold commit
    rw [commitOps_file hb hf hne hs hs' he he' hdot]
    exact h1
  · unfold read
    rw [hp]
    have : d'.names.contains (⟨[], bucket :: folders ++ [stem ++ '.' :: ext]⟩ : Posix) = true := by
      rw [List.contains_iff_mem, h2, mem_addName]
      exact Or.inr rfl
    rw [this, if_pos rfl, h4]
    congr 1
    apply List.take_of_length_le
    omega
  · intro other ho
    rw [hp] at ho
    unfold read
    have : d'.names.contains (Posix.parse other) = d.names.contains (Posix.parse other) := by
      rw [Bool.eq_iff_iff, List.contains_iff_mem, List.contains_iff_mem, h2, mem_addName]
      constructor
      · rintro (h | h)
        · exact h
        · exact absurd h ho
      · exact Or.inl
    rw [this, h3 _ ho]

/-- **C84**: when storing a blob is stopped after any number of steps, the blob is not there, or is there
with a beginning of its bytes; and every other file is as it was. -/
theorem C84_stopped_store (d : Disk) (bucket : Str) (folders : List Str) (stem ext : Str) (hb : Comp bucket)
    (hf : ∀ f ∈ folders, Comp f) (hne : folders ≠ []) (hs : stem ≠ []) (hs' : '/' ∉ stem)
    (he : ext ≠ []) (he' : '/' ∉ ext) (hdot : '.' ∉ ext) (hcl : Clear d (bucket :: folders)) (bytes : Bytes)
    (ops : List Op) (hops : commitOps (join ['/'] (bucket :: folders ++ [stem ++ '.' :: ext])) bytes = .ok ops)
    (k : Nat) :
    ∃ d', exec d (ops.take k) = .ok d' ∧
      (read d' (join ['/'] (bucket :: folders ++ [stem ++ '.' :: ext]))
          = read d (join ['/'] (bucket :: folders ++ [stem ++ '.' :: ext])) ∨
        ∃ part, part <+: bytes ∧
          read d' (join ['/'] (bucket :: folders ++ [stem ++ '.' :: ext])) = .ok part) ∧
      ∀ other, Posix.parse other ≠ Posix.parse (join ['/'] (bucket :: folders ++ [stem ++ '.' :: ext])) →
        read d' other = read d other := by
  rw [commitOps_file hb hf hne hs hs' he he' hdot] at hops
  cases hops
  have hc : ∀ c ∈ bucket :: folders, Comp c := by
    intro c hc
    rcases List.mem_cons.1 hc with rfl | hc
    · exact hb
    · exact hf c hc
  have hn : Comp (stem ++ '.' :: ext) := by
    refine ⟨by simp, ?_, ?_⟩
    · intro h
      have := congrArg List.length h
      have h1 : 0 < stem.length := List.length_pos_iff.2 hs
      simp at this
      omega
    · simp [hs', he']
  have hp : Posix.parse (join ['/'] (bucket :: folders ++ [stem ++ '.' :: ext]))
      = ⟨[], bucket :: folders ++ [stem ++ '.' :: ext]⟩ := by
    apply parse_join (by simp)
    intro c hm
    rcases List.mem_append.1 hm with hm | hm
    · exact hc c hm
    · rw [List.mem_singleton.1 hm]; exact hn
  obtain ⟨d', h1, _, hcase⟩ := commit_run hcl.room (stem ++ '.' :: ext) bytes k
  refine ⟨d', h1, ?_, ?_⟩
  · unfold read
    rw [hp]
    rcases hcase with ⟨_, h2, h3⟩ | ⟨_, h2, h3, h4⟩
    · left; rw [h2, h3]
    · right
      refine ⟨bytes.take (k - (bucket :: folders).length - 1), List.take_prefix _ bytes, ?_⟩
      have : d'.names.contains (⟨[], bucket :: folders ++ [stem ++ '.' :: ext]⟩ : Posix) = true := by
        rw [List.contains_iff_mem, h2, mem_addName]
        exact Or.inr rfl
      rw [this, if_pos rfl, h4]
  · intro other ho
    rw [hp] at ho
    unfold read
    rcases hcase with ⟨_, h2, h3⟩ | ⟨_, h2, h3, h4⟩
    · rw [h2, h3]
    · have : d'.names.contains (Posix.parse other) = d.names.contains (Posix.parse other) := by
        rw [Bool.eq_iff_iff, List.contains_iff_mem, List.contains_iff_mem, h2, mem_addName]
        constructor
        · rintro (h | h)
          · exact h
          · exact absurd h ho
        · exact Or.inl
      rw [this, h3 _ ho]

/-! ## A run of a batch writer, stopped at any step -/

theorem ext_split (format : Str) : ∃ a e, extension format = a ++ '.' :: e ∧ e ≠ [] ∧ '/' ∉ a ∧ '/' ∉ e ∧
    '.' ∉ e := by
  unfold extension
  split
  · exact ⟨[], "txt".toList, rfl, by decide, by decide, by decide, by decide⟩
  · split
    · rename_i hf
      rcases hf with rfl | rfl
      · exact ⟨".jsonl".toList, "zstd".toList, rfl, by decide, by decide, by decide, by decide⟩
      · exact ⟨".jsonl".toList, "parquet".toList, rfl, by decide, by decide, by decide, by decide⟩
    · exact ⟨[], "jsonl".toList, rfl, by decide, by decide, by decide, by decide⟩

/-- The folder of the frame of a run. -/
def frameFolder (w : Job) (ls : List (List Piece)) (now : DateTime) : List Str :=
  ls.map (filled w.date) ++ [asAtName now]

theorem frame_ops {w : Job} {ls : List (List Piece)} (h : w.OK ls) {now : DateTime} (hv : now.valid = true)
    {stem ext : Str} (hs : stem ≠ []) (hs' : '/' ∉ stem) (he : ext ≠ []) (he' : '/' ∉ ext) (hdot : '.' ∉ ext)
    (bytes : Bytes) :
    commitOps (Framed.path ⟨w.base ls, asAtName now, stem ++ '.' :: ext⟩) bytes
      = .ok (blobOps (frameFolder w ls now) (stem ++ '.' :: ext) bytes) := by
  have hc : ∀ c ∈ ls.map (filled w.date), Comp c := by
    intro c hc
    obtain ⟨l, hl, rfl⟩ := List.mem_map.1 hc
    exact folder_filled (h.folders l hl) h.date
  have ha : Comp (asAtName now) := ⟨by rw [asAtName_eq]; simp, by rw [asAtName_eq]; simp, asAtName_flat hv⟩
  have hne : ls.map (filled w.date) ≠ [] := by simpa using h.ne
  obtain ⟨b, fs, e⟩ : ∃ b fs, ls.map (filled w.date) = b :: fs := by
    cases hx : ls.map (filled w.date) with
    | nil => exact absurd hx hne
    | cons b fs => exact ⟨b, fs, rfl⟩
  have e3 : Framed.path ⟨w.base ls, asAtName now, stem ++ '.' :: ext⟩
      = join ['/'] (b :: (fs ++ [asAtName now]) ++ [stem ++ '.' :: ext]) := by
    rw [← List.cons_append, ← e, join_snoc _ _ (by simp), join_snoc _ _ hne]
    rfl
  rw [e3, commitOps_file (hc b (by rw [e]; simp)) ?_ (by simp) hs hs' he he' hdot]
  · unfold frameFolder
    rw [e]; rfl
  · intro f hf
    rcases List.mem_append.1 hf with hf | hf
    · exact hc f (by rw [e]; simp [hf])
    · rw [List.mem_singleton.1 hf]; exact ha

/-- The files of a run, in its folder. -/
def runFiles (w : Job) (blobs : List (Str × Bytes)) : List (Str × Bytes) :=
  blobs.map (fun b => (b.1 ++ extension w.format, b.2)) ++ [("frame.complete".toList, [])]

theorem storeOps_map {cs : List Str} {g : Str → Str} (l : List (Str × Bytes))
    (h : ∀ it ∈ l, commitOps (g it.1) it.2 = .ok (blobOps cs it.1 it.2)) :
    storeOps (l.map (fun it => (g it.1, it.2))) = .ok (l.flatMap (fun it => blobOps cs it.1 it.2)) := by
  induction l with
  | nil => rfl
  | cons a l ih =>
    rw [List.map_cons, storeOps, h a (by simp), ih (fun b hb => h b (by simp [hb]))]
    rfl

/-- The steps with which blobs are stored. -/
theorem data_ops {w : Job} {ls : List (List Piece)} (h : w.OK ls) {now : DateTime} (hv : now.valid = true)
    {blobs : List (Str × Bytes)} (hid : ∀ b ∈ blobs, HexId b.1 ∧ b.1 ≠ []) :
    storeOps (blobs.map (fun b => (Framed.path ⟨w.base ls, asAtName now, b.1 ++ extension w.format⟩, b.2)))
      = .ok ((blobs.map (fun b => (b.1 ++ extension w.format, b.2))).flatMap
        (fun it => blobOps (frameFolder w ls now) it.1 it.2)) := by
  have h2 := storeOps_map (cs := frameFolder w ls now) (g := fun s => Framed.path ⟨w.base ls, asAtName now, s⟩)
    (blobs.map (fun b => (b.1 ++ extension w.format, b.2))) (by
      intro it hit
      obtain ⟨b, hb, rfl⟩ := List.mem_map.1 hit
      obtain ⟨a, e, he, h1, h2, h3, h4⟩ := ext_split w.format
      have : b.1 ++ extension w.format = (b.1 ++ a) ++ '.' :: e := by rw [he]; simp
      simp only [this]
      refine frame_ops h hv ?_ ?_ h1 h3 h4 _
      · simp [(hid b hb).2]
      · rw [List.mem_append, not_or]
        exact ⟨hex_not (hid b hb).1 (by decide), h2⟩)
  rw [List.map_map] at h2
  exact h2

theorem run_ops {w : Job} {ls : List (List Piece)} (h : w.OK ls) {now : DateTime} (hv : now.valid = true)
    {blobs : List (Str × Bytes)} (hid : ∀ b ∈ blobs, HexId b.1 ∧ b.1 ≠ []) :
    (match runItems w now blobs with
      | .error e => (.error e : Except Err (List Op))
      | .ok items => storeOps items)
      = .ok ((runFiles w blobs).flatMap (fun it => blobOps (frameFolder w ls now) it.1 it.2)) := by
  have h1 : runItems w now blobs = .ok ((runFiles w blobs).map
      (fun it => (Framed.path ⟨w.base ls, asAtName now, it.1⟩, it.2))) := by
    unfold runItems
    rw [mapM_map (g := fun b => (Framed.path ⟨w.base ls, asAtName now, b.1 ++ extension w.format⟩, b.2))
      (fun b _ => by rw [batchBlob_eq h hv]; rfl), batchBlob_eq h hv]
    simp only
    have hm := completionPath_eq h hv ⟨now, [], true, false⟩ rfl
    unfold Batch.markers at hm
    simp only [batchBlob_eq h hv] at hm
    simp only [if_true, Bool.false_eq_true, if_false, List.append_nil, Except.ok.injEq, List.cons.injEq,
      and_true] at hm
    rw [hm, runFiles, List.map_append, List.map_map]
    rfl
  have h2 : storeOps ((runFiles w blobs).map
      (fun it => (Framed.path ⟨w.base ls, asAtName now, it.1⟩, it.2)))
      = .ok ((runFiles w blobs).flatMap (fun it => blobOps (frameFolder w ls now) it.1 it.2)) := by
    apply storeOps_map (g := fun s => Framed.path ⟨w.base ls, asAtName now, s⟩)
    intro it hit
    rcases List.mem_append.1 hit with hit | hit
    · obtain ⟨b, hb, rfl⟩ := List.mem_map.1 hit
      obtain ⟨a, e, he, h1, h2, h3, h4⟩ := ext_split w.format
      have : b.1 ++ extension w.format = (b.1 ++ a) ++ '.' :: e := by rw [he]; simp
      simp only [this]
      refine frame_ops h hv ?_ ?_ h1 h3 h4 _
      · simp [(hid b hb).2]
      · rw [List.mem_append, not_or]
        exact ⟨hex_not (hid b hb).1 (by decide), h2⟩
    · rw [List.mem_singleton.1 hit]
      exact frame_ops (stem := "frame".toList) (ext := "complete".toList) h hv (by decide) (by decide)
        (by decide) (by decide) (by decide) []
  rw [h1]
  simp only [h2]

theorem stopped_eq {w : Job} {ls : List (List Piece)} (h : w.OK ls) {now : DateTime} (hv : now.valid = true)
    (d : Disk) {blobs : List (Str × Bytes)} (hid : ∀ b ∈ blobs, HexId b.1 ∧ b.1 ≠ []) (k : Nat) :
    stopped d w now blobs k = exec d
      (((runFiles w blobs).flatMap (fun it => blobOps (frameFolder w ls now) it.1 it.2)).take k) := by
  have h0 := run_ops (ls := ls) h hv hid
  unfold stopped
  cases hr : runItems w now blobs with
  | error e => rw [hr] at h0; cases h0
  | ok items =>
    rw [hr] at h0
    simp only at h0
    simp only [h0]

/-- The file of a run. -/
theorem at_eq {w : Job} {ls : List (List Piece)} (h : w.OK ls) {b : Batch} (hv : b.now.valid = true)
    (hi : ∀ i ∈ b.ids, HexId i) {x : Framed} (hx : x ∈ b.framed w ls) (bytes : Bytes) :
    at_ (frameFolder w ls b.now) (x.name, bytes) = Posix.parse x.path := by
  rw [(framed_parse h hv hi hx).1, (framed_base hx).2]
  simp [at_, frameFolder]

/-- The run as it stands when the first `j` of its files are there. -/
def soFar (now : DateTime) (blobs : List (Str × Bytes)) (j : Nat) : Batch :=
  ⟨now, (blobs.take j).map Prod.fst, decide (blobs.length < j), false⟩

theorem soFar_framed {w : Job} {ls : List (List Piece)} {now : DateTime} {blobs : List (Str × Bytes)} {j : Nat}
    (x : Framed) : x ∈ (soFar now blobs j).framed w ls ↔
      ∃ it ∈ (runFiles w blobs).take j, x = ⟨w.base ls, asAtName now, it.1⟩ := by
  unfold runFiles
  rw [List.take_append, ← List.map_take, List.length_map]
  simp only [soFar, Batch.framed, Bool.false_eq_true, if_false, List.append_nil, List.mem_append, List.mem_map]
  constructor
  · rintro (⟨i, ⟨b, hb, rfl⟩, rfl⟩ | hx)
    · exact ⟨_, Or.inl ⟨b, hb, rfl⟩, rfl⟩
    · by_cases hj : blobs.length < j
      · obtain ⟨m, hm⟩ : ∃ m, j - blobs.length = m + 1 := ⟨j - blobs.length - 1, by omega⟩
        simp only [hj, decide_true, if_true] at hx
        refine ⟨("frame.complete".toList, []), Or.inr (by rw [hm]; simp), List.mem_singleton.1 hx⟩
      · simp [hj] at hx
  · rintro ⟨it, ⟨b, hb, rfl⟩ | hit, rfl⟩
    · exact Or.inl ⟨b.1, ⟨b, hb, rfl⟩, rfl⟩
    · right
      have hj : blobs.length < j := by
        apply Decidable.byContradiction
        intro hj
        rw [Nat.sub_eq_zero_of_le (by omega)] at hit
        simp at hit
      obtain ⟨m, hm⟩ : ∃ m, j - blobs.length = m + 1 := ⟨j - blobs.length - 1, by omega⟩
      rw [hm] at hit
      simp only [List.take_succ_cons, List.take_nil, List.mem_singleton] at hit
      subst hit
      simp [hj]

theorem runFiles_nodup (w : Job) {blobs : List (Str × Bytes)} (hid : ∀ b ∈ blobs, HexId b.1 ∧ b.1 ≠ [])
    (hnd : (blobs.map Prod.fst).Nodup) : ((runFiles w blobs).map Prod.fst).Nodup := by
  unfold runFiles
  rw [List.map_append, List.map_map, List.nodup_append]
  refine ⟨?_, by simp, ?_⟩
  · have e : (Prod.fst ∘ fun b : Str × Bytes => (b.1 ++ extension w.format, b.2))
        = (fun s : Str => s ++ extension w.format) ∘ Prod.fst := rfl
    rw [e, ← List.map_map]
    refine List.Pairwise.map _ ?_ hnd
    intro a b hab e
    exact hab (List.append_cancel_right e)
  · intro a ha b hb
    simp only [List.map_cons, List.map_nil, List.mem_singleton] at hb
    subst hb
    obtain ⟨c, hc, rfl⟩ := List.mem_map.1 ha
    intro e
    exact name_no_marker (format := w.format) (hid c hc).1 (m := "frame.complete".toList) ⟨_, rfl⟩ (by
      have e : c.1 ++ extension w.format = "frame.complete".toList := e
      rw [e]
      exact List.prefix_refl _)

theorem mem_runFiles_soFar {w : Job} {ls : List (List Piece)} {now : DateTime} {blobs : List (Str × Bytes)}
    {it : Str × Bytes} (h : it ∈ runFiles w blobs) :
    (⟨w.base ls, asAtName now, it.1⟩ : Framed) ∈ (soFar now blobs (blobs.length + 1)).framed w ls := by
  rw [soFar_framed]
  refine ⟨it, ?_, rfl⟩
  have : (runFiles w blobs).length = blobs.length + 1 := by simp [runFiles]
  rw [← this, List.take_length]
  exact h

theorem soFar_hex {now : DateTime} {blobs : List (Str × Bytes)} {j : Nat}
    (hid : ∀ b ∈ blobs, HexId b.1 ∧ b.1 ≠ []) : ∀ i ∈ (soFar now blobs j).ids, HexId i := by
  intro i hi
  obtain ⟨b, hb, rfl⟩ := List.mem_map.1 hi
  exact (hid b (List.mem_of_mem_take hb)).1

theorem at_soFar {w : Job} {ls : List (List Piece)} (h : w.OK ls) {now : DateTime} (hv : now.valid = true)
    {blobs : List (Str × Bytes)} (hid : ∀ b ∈ blobs, HexId b.1 ∧ b.1 ≠ []) {j : Nat} {it : Str × Bytes}
    (hx : (⟨w.base ls, asAtName now, it.1⟩ : Framed) ∈ (soFar now blobs j).framed w ls) :
    at_ (frameFolder w ls now) it = Posix.parse (Framed.path ⟨w.base ls, asAtName now, it.1⟩) :=
  at_eq h (b := soFar now blobs j) hv (soFar_hex hid) hx it.2

theorem beneath_at (w : Job) (ls : List (List Piece)) (now : DateTime) (it : Str × Bytes) :
    beneath ⟨[], ls.map (filled w.date)⟩ (at_ (frameFolder w ls now) it) = true := by
  simp [beneath, frameFolder]

/-- What is on the disk when a run is stopped. -/
theorem stopped_holds (w : Job) (ls : List (List Piece)) (h : w.OK ls) (hs : List Batch)
    (hv : ∀ b ∈ hs, b.now.valid = true) (hi : ∀ b ∈ hs, ∀ i ∈ b.ids, HexId i) (d : Disk)
    (hd : Holds w hs d.names ⟨[], ls.map (filled w.date)⟩)
    (now : DateTime) (hnv : now.valid = true) (hnew : ∀ b ∈ hs, b.now.seconds < now.seconds)
    (blobs : List (Str × Bytes)) (hid : ∀ b ∈ blobs, HexId b.1 ∧ b.1 ≠ []) (hnd : (blobs.map Prod.fst).Nodup)
    (hcl : Clear d (frameFolder w ls now)) (k : Nat) :
    ∃ j d', stopped d w now blobs k = .ok d' ∧
      Holds w (hs ++ [soFar now blobs j]) d'.names ⟨[], ls.map (filled w.date)⟩ ∧
      (∀ x bytes, read d x = .ok bytes → read d' x = .ok bytes) ∧
      (blobs.length < j → ∀ b ∈ blobs,
        read d' (Framed.path ⟨w.base ls, asAtName now, b.1 ++ extension w.format⟩) = .ok b.2) ∧
      (((runFiles w blobs).flatMap (fun it => blobOps (frameFolder w ls now) it.1 it.2)).length ≤ k ↔
        blobs.length < j) := by
  have hrl : (runFiles w blobs).length = blobs.length + 1 := by simp [runFiles]
  have hnewf : ∀ it ∈ runFiles w blobs, at_ (frameFolder w ls now) it ∉ d.names := by
    intro it hit hm
    have hx := mem_runFiles_soFar (ls := ls) (now := now) hit
    have hb := (hd.beneath_iff (at_ (frameFolder w ls now) it)).1 ⟨hm, beneath_at w ls now it⟩
    obtain ⟨b, hbm, hrest⟩ := hb
    obtain ⟨y, hy, e⟩ := (paths_eq h b (hv b hbm) _).1 hrest
    rw [(framed_parse h (hv b hbm) (hi b hbm) hy).1, (framed_base hy).2] at e
    simp only [at_, frameFolder, Posix.mk.injEq, true_and, List.append_assoc] at e
    have e := List.append_cancel_left e
    simp only [List.cons_append, List.nil_append, List.cons.injEq] at e
    have := asAtName_inj hnv (hv b hbm) e.1
    have hlt := hnew b hbm
    rw [← this] at hlt
    omega
  obtain ⟨j, d', hj, he, _, g1, g2, g3, g4, g5⟩ :=
    store_run hcl.room (runFiles w blobs) (runFiles_nodup w hid hnd) hnewf k
  refine ⟨j, d', by rw [stopped_eq h hnv d hid]; exact he, ⟨?_, ?_⟩, ?_, ?_, ?_⟩
  · intro q hq
    rcases (g1 q).1 hq with hq | ⟨it, hit, rfl⟩
    · exact hd.normal q hq
    · have hx := (soFar_framed (ls := ls) (now := now) (j := j) ⟨w.base ls, asAtName now, it.1⟩).2 ⟨it, hit, rfl⟩
      rw [at_soFar h hnv hid hx, (framed_parse h (b := soFar now blobs j) hnv (soFar_hex hid) hx).2]
  · intro q
    rw [g1]
    constructor
    · rintro ⟨hq | ⟨it, hit, rfl⟩, hb⟩
      · obtain ⟨b, hbm, hrest⟩ := (hd.beneath_iff q).1 ⟨hq, hb⟩
        exact ⟨b, by simp [hbm], hrest⟩
      · refine ⟨soFar now blobs j, by simp, (paths_eq h (soFar now blobs j) hnv _).2 ?_⟩
        have hx := (soFar_framed (ls := ls) (now := now) (j := j) ⟨w.base ls, asAtName now, it.1⟩).2
          ⟨it, hit, rfl⟩
        exact ⟨_, hx, at_soFar h hnv hid hx⟩
    · rintro ⟨b, hbm, hrest⟩
      rcases List.mem_append.1 hbm with hbm | hbm
      · obtain ⟨hq, hb⟩ := (hd.beneath_iff q).2 ⟨b, hbm, hrest⟩
        exact ⟨Or.inl hq, hb⟩
      · rw [List.mem_singleton.1 hbm] at hrest
        obtain ⟨x, hx, e⟩ := (paths_eq h (soFar now blobs j) hnv _).1 hrest
        obtain ⟨it, hit, rfl⟩ := (soFar_framed (ls := ls) (now := now) (j := j) x).1 hx
        rw [← at_soFar h hnv hid hx] at e
        subst e
        exact ⟨Or.inr ⟨it, hit, rfl⟩, beneath_at w ls now it⟩
  · intro x bytes hx
    unfold read at hx ⊢
    by_cases hm : Posix.parse x ∈ d.names
    · have h1 : d.names.contains (Posix.parse x) = true := by simpa using hm
      have h2 : d'.names.contains (Posix.parse x) = true := by
        rw [List.contains_iff_mem, g1]; exact Or.inl hm
      rw [h1, if_pos rfl] at hx
      rw [h2, if_pos rfl, g2 _ (fun it hit e => hnewf it hit (e ▸ hm))]
      exact hx
    · have h1 : d.names.contains (Posix.parse x) = false := by simpa using hm
      rw [h1] at hx
      simp at hx
  · intro hlt b hb
    have hmem : (b.1 ++ extension w.format, b.2) ∈ (runFiles w blobs).take (j - 1) := by
      have e : j - 1 = blobs.length := by omega
      rw [e]
      unfold runFiles
      rw [List.take_append, List.length_map, Nat.sub_self, List.take_zero, List.append_nil,
        List.take_of_length_le (by simp)]
      exact List.mem_map.2 ⟨b, hb, rfl⟩
    have hmem' : (b.1 ++ extension w.format, b.2) ∈ (runFiles w blobs).take j :=
      List.take_subset_take_left _ (by omega) hmem
    have hx := (soFar_framed (ls := ls) (now := now) (j := j)
      ⟨w.base ls, asAtName now, b.1 ++ extension w.format⟩).2 ⟨_, hmem', rfl⟩
    have ha := at_soFar h hnv hid (it := (b.1 ++ extension w.format, b.2)) hx
    unfold read
    simp only at ha
    rw [← ha, g3 _ hmem]
    have : d'.names.contains (at_ (frameFolder w ls now) (b.1 ++ extension w.format, b.2)) = true := by
      rw [List.contains_iff_mem, g1]
      exact Or.inr ⟨_, hmem', rfl⟩
    rw [this, if_pos rfl]
  · constructor
    · intro hle
      have := (g5 hle).1
      omega
    · intro hlt
      apply Decidable.byContradiction
      intro hk
      -- the marker is there, so it was created; that is the last step
      have hm : at_ (frameFolder w ls now) ("frame.complete".toList, []) ∈ d'.names := by
        rw [g1]
        refine Or.inr ⟨("frame.complete".toList, []), ?_, rfl⟩
        rw [List.take_of_length_le (by omega)]
        simp [runFiles]
      rcases exec_names he hm with h1 | h1
      · exact hnewf _ (by simp [runFiles]) h1
      · unfold runFiles at h1 hk
        rw [List.flatMap_append, List.flatMap_cons, List.flatMap_nil, List.append_nil] at h1 hk
        rw [show blobOps (frameFolder w ls now) ("frame.complete".toList, ([] : Bytes)).1
            ("frame.complete".toList, ([] : Bytes)).2 = makedirs ⟨[], frameFolder w ls now⟩ ++
            [.create ⟨[], frameFolder w ls now ++ ["frame.complete".toList]⟩] from rfl, ← List.append_assoc] at h1 hk
        rw [List.length_append, List.length_singleton] at hk
        rw [List.take_append_of_le_length (by omega)] at h1
        have h1 := List.mem_of_mem_take h1
        rcases List.mem_append.1 h1 with h1 | h1
        · obtain ⟨it, hit, h1⟩ := List.mem_flatMap.1 h1
          have e : it.1 = "frame.complete".toList := by
            unfold blobOps at h1
            rcases List.mem_append.1 h1 with h1 | h1
            · simp [makedirs] at h1
            · rcases List.mem_cons.1 h1 with h1 | h1
              · simp only [at_, Op.create.injEq, Posix.mk.injEq, true_and] at h1
                have := List.append_cancel_left h1
                simp only [List.cons.injEq, and_true] at this
                exact this.symm
              · simp at h1
          have hn := runFiles_nodup w hid hnd
          unfold runFiles at hn
          rw [List.map_append, List.nodup_append] at hn
          exact hn.2.2 _ (List.mem_map_of_mem hit) _ (by simp) e
        · simp [makedirs] at h1

/-- An unfinished run changes nothing of what is read. -/
theorem latest_unfinished {hs : List Batch} {b : Batch} (hc : b.complete = false) (hig : b.ignored = false)
    (t : DateTime) : Latest (hs ++ [b]) t ↔ Latest hs t := by
  have h1 : ∀ u, (∃ b' ∈ hs ++ [b], b'.now = u ∧ b'.ignored = true) ↔ ∃ b' ∈ hs, b'.now = u ∧ b'.ignored = true := by
    intro u
    constructor
    · rintro ⟨b', hb', e1, e2⟩
      rcases List.mem_append.1 hb' with hb' | hb'
      · exact ⟨b', hb', e1, e2⟩
      · rw [List.mem_singleton.1 hb', hig] at e2; cases e2
    · rintro ⟨b', hb', e⟩
      exact ⟨b', by simp [hb'], e⟩
  constructor
  · rintro ⟨⟨b', hb', e1, e2⟩, h2, h3⟩
    refine ⟨?_, fun h => h2 ((h1 t).2 h), ?_⟩
    · rcases List.mem_append.1 hb' with hb' | hb'
      · exact ⟨b', hb', e1, e2⟩
      · rw [List.mem_singleton.1 hb', hc] at e2; cases e2
    · intro c hcm h4 h5
      exact h3 c (by simp [hcm]) h4 (fun h => h5 ((h1 _).1 h))
  · rintro ⟨⟨b', hb', e1, e2⟩, h2, h3⟩
    refine ⟨⟨b', by simp [hb'], e1, e2⟩, fun h => h2 ((h1 t).1 h), ?_⟩
    intro c hcm h4 h5
    rcases List.mem_append.1 hcm with hcm | hcm
    · exact h3 c hcm h4 (fun h => h5 ((h1 _).2 h))
    · rw [List.mem_singleton.1 hcm, hc] at h4; cases h4

/-- A finished run that is later than all others is the one that is read. -/
theorem latest_finished {hs : List Batch} {b : Batch} (hc : b.complete = true) (hig : b.ignored = false)
    (hnew : ∀ b' ∈ hs, b'.now.seconds < b.now.seconds) (t : DateTime) : Latest (hs ++ [b]) t ↔ t = b.now := by
  have hno : ¬ ∃ b' ∈ hs ++ [b], b'.now = b.now ∧ b'.ignored = true := by
    rintro ⟨b', hb', e1, e2⟩
    rcases List.mem_append.1 hb' with hb' | hb'
    · have := hnew b' hb'
      rw [e1] at this
      omega
    · rw [List.mem_singleton.1 hb', hig] at e2; cases e2
  constructor
  · rintro ⟨⟨b', hb', e1, e2⟩, h2, h3⟩
    have := h3 b (by simp) hc hno
    rcases List.mem_append.1 hb' with hb' | hb'
    · have h4 := hnew b' hb'
      rw [e1] at h4
      omega
    · rw [← e1, List.mem_singleton.1 hb']
  · rintro rfl
    refine ⟨⟨b, by simp, rfl, hc⟩, hno, ?_⟩
    intro c hcm _ _
    rcases List.mem_append.1 hcm with hcm | hcm
    · exact Nat.le_of_lt (hnew c hcm)
    · rw [List.mem_singleton.1 hcm]

theorem crash_core (w : Job) (ls : List (List Piece)) (h : w.OK ls) (hb : PlainBase (w.base ls))
    (hs : List Batch) (hv : ∀ b ∈ hs, b.now.valid = true) (hi : ∀ b ∈ hs, ∀ i ∈ b.ids, HexId i)
    (d : Disk) (rnd : Str) (hd : Holds w hs d.names (cyclePath (readerDataset w.dataset w.partitions) rnd w.date))
    (now : DateTime) (hnv : now.valid = true) (hnew : ∀ b ∈ hs, b.now.seconds < now.seconds)
    (blobs : List (Str × Bytes)) (hid : ∀ b ∈ blobs, HexId b.1 ∧ b.1 ≠ []) (hnd : (blobs.map Prod.fst).Nodup)
    (hcl : Clear d (frameFolder w ls now)) (k : Nat)
    (dates : List DateTime) (hdv : ∀ t ∈ dates, t.valid = true) (hmem : w.date ∈ dates) :
    ∃ d' before after, ∃ done : Bool, stopped d w now blobs k = .ok d' ∧
      listBlobs (readerDataset w.dataset w.partitions) rnd none (diskBlobsAt d.names) dates = .ok before ∧
      listBlobs (readerDataset w.dataset w.partitions) rnd none (diskBlobsAt d'.names) dates = .ok after ∧
      (∀ x bytes, read d x = .ok bytes → read d' x = .ok bytes) ∧
      (((runFiles w blobs).flatMap (fun it => blobOps (frameFolder w ls now) it.1 it.2)).length ≤ k →
        done = true) ∧
      (done = false → ∀ x, beneath (cyclePath (readerDataset w.dataset w.partitions) rnd w.date) (Posix.parse x) = true →
          (x ∈ after ↔ x ∈ before)) ∧
      (done = true →
        (∀ x, beneath (cyclePath (readerDataset w.dataset w.partitions) rnd w.date) (Posix.parse x) = true →
            (x ∈ after ↔ ∃ b ∈ blobs,
              batchBlob w.dataset w.partitions (asAtName now) w.date w.rnd w.format b.1 = .ok x)) ∧
          ∀ b ∈ blobs, ∃ x, batchBlob w.dataset w.partitions (asAtName now) w.date w.rnd w.format b.1 = .ok x ∧
            x ∈ after ∧ read d' x = .ok b.2) := by
  have hd0 := hd
  rw [cyclePath_eq h rnd] at hd
  obtain ⟨j, d', he, hh, hold, hfull, hall⟩ := stopped_holds w ls h hs hv hi d hd now hnv hnew blobs hid hnd hcl k
  have hh0 := hh
  rw [← cyclePath_eq h rnd] at hh
  have hv' : ∀ b ∈ hs ++ [soFar now blobs j], b.now.valid = true := by
    intro b hbm
    rcases List.mem_append.1 hbm with hbm | hbm
    · exact hv b hbm
    · rw [List.mem_singleton.1 hbm]; exact hnv
  have hi' : ∀ b ∈ hs ++ [soFar now blobs j], ∀ i ∈ b.ids, HexId i := by
    intro b hbm
    rcases List.mem_append.1 hbm with hbm | hbm
    · exact hi b hbm
    · rw [List.mem_singleton.1 hbm]; exact soFar_hex hid
  obtain ⟨before, hbf, hbx⟩ := C22_completed_is_read w ls h hb hs hv hi d.names rnd hd0 dates hdv hmem
  obtain ⟨after, haf, hax⟩ := C22_completed_is_read w ls h hb _ hv' hi' d'.names rnd hh dates hdv hmem
  refine ⟨d', before, after, decide (blobs.length < j), he, hbf, haf, hold, fun hk => by simpa using hall.1 hk, ?_, ?_⟩
  case refine_2 =>
    intro hj
    rw [decide_eq_true_eq] at hj
    have hc : (soFar now blobs j).complete = true := by simp [soFar, hj]
    have key : ∀ x, beneath (cyclePath (readerDataset w.dataset w.partitions) rnd w.date) (Posix.parse x) = true →
        (x ∈ after ↔ ∃ b ∈ blobs,
          batchBlob w.dataset w.partitions (asAtName now) w.date w.rnd w.format b.1 = .ok x) := by
      intro x hx
      rw [hax x hx]
      constructor
      · rintro ⟨t, ht, b, hbm, e, i, him, hbb⟩
        have ht := (latest_finished hc rfl hnew t).1 ht
        have ht : t = now := ht
        rcases List.mem_append.1 hbm with hbm | hbm
        · have := hnew b hbm
          rw [e, ht] at this
          omega
        · rw [List.mem_singleton.1 hbm] at him hbb
          obtain ⟨b', hb', rfl⟩ := List.mem_map.1 him
          exact ⟨b', List.mem_of_mem_take hb', hbb⟩
      · rintro ⟨b, hbm, hbb⟩
        refine ⟨now, (latest_finished hc rfl hnew now).2 rfl, soFar now blobs j, by simp, rfl, b.1, ?_, hbb⟩
        refine List.mem_map.2 ⟨b, ?_, rfl⟩
        rw [List.take_of_length_le (by omega)]
        exact hbm
    refine ⟨key, ?_⟩
    intro b hbm
    refine ⟨_, batchBlob_eq h hnv b.1, ?_, hfull hj b hbm⟩
    refine (key _ ?_).2 ⟨b, hbm, batchBlob_eq h hnv b.1⟩
    have hx := mem_runFiles_soFar (w := w) (ls := ls) (now := now) (blobs := blobs)
      (it := (b.1 ++ extension w.format, b.2)) (List.mem_append_left _ (List.mem_map.2 ⟨b, hbm, rfl⟩))
    rw [(framed_parse h (b := soFar now blobs _) hnv (soFar_hex hid) hx).1, cyclePath_eq h rnd]
    simp [beneath]
  case refine_1 =>
    intro hj
    rw [decide_eq_false_iff_not] at hj
    have hc : (soFar now blobs j).complete = false := by simp [soFar]; omega
    intro x hx
    rw [hax x hx, hbx x hx]
    constructor
    · rintro ⟨t, ht, b, hbm, e, i, him, hbb⟩
      have ht := (latest_unfinished hc rfl t).1 ht
      rcases List.mem_append.1 hbm with hbm | hbm
      · exact ⟨t, ht, b, hbm, e, i, him, hbb⟩
      · exfalso
        rw [List.mem_singleton.1 hbm] at e
        have e : now = t := e
        obtain ⟨c, hcm, e2, _⟩ := ht.complete
        have := hnew c hcm
        rw [e2, ← e] at this
        omega
    · rintro ⟨t, ht, b, hbm, e, i, him, hbb⟩
      exact ⟨t, (latest_unfinished hc rfl t).2 ht, b, by simp [hbm], e, i, him, hbb⟩

/-- **C84, crash atomicity**: a disk holds the runs of a history, and a new batch run, later than all of
them, is stopped after any number of its steps — between blobs, in the middle of one, before or after the
marker.  A reader of the date then lists either exactly the blobs it listed before the run, or exactly the
blobs of the run, and in that case every one of them has all its bytes.  Nothing that was on the disk is
changed. -/
theorem C84_crash_atomic (w : Job) (ls : List (List Piece)) (h : w.OK ls) (hb : PlainBase (w.base ls))
    (hs : List Batch) (hv : ∀ b ∈ hs, b.now.valid = true) (hi : ∀ b ∈ hs, ∀ i ∈ b.ids, HexId i)
    (d : Disk) (rnd : Str) (hd : Holds w hs d.names (cyclePath (readerDataset w.dataset w.partitions) rnd w.date))
    (now : DateTime) (hnv : now.valid = true) (hnew : ∀ b ∈ hs, b.now.seconds < now.seconds)
    (blobs : List (Str × Bytes)) (hid : ∀ b ∈ blobs, HexId b.1 ∧ b.1 ≠ []) (hnd : (blobs.map Prod.fst).Nodup)
    (hcl : Clear d (frameFolder w ls now)) (k : Nat)
    (dates : List DateTime) (hdv : ∀ t ∈ dates, t.valid = true) (hmem : w.date ∈ dates) :
    ∃ d' before after, stopped d w now blobs k = .ok d' ∧
      listBlobs (readerDataset w.dataset w.partitions) rnd none (diskBlobsAt d.names) dates = .ok before ∧
      listBlobs (readerDataset w.dataset w.partitions) rnd none (diskBlobsAt d'.names) dates = .ok after ∧
      (∀ x bytes, read d x = .ok bytes → read d' x = .ok bytes) ∧
      ((∀ x, beneath (cyclePath (readerDataset w.dataset w.partitions) rnd w.date) (Posix.parse x) = true →
          (x ∈ after ↔ x ∈ before)) ∨
        ((∀ x, beneath (cyclePath (readerDataset w.dataset w.partitions) rnd w.date) (Posix.parse x) = true →
            (x ∈ after ↔ ∃ b ∈ blobs,
              batchBlob w.dataset w.partitions (asAtName now) w.date w.rnd w.format b.1 = .ok x)) ∧
          ∀ b ∈ blobs, ∃ x, batchBlob w.dataset w.partitions (asAtName now) w.date w.rnd w.format b.1 = .ok x ∧
            x ∈ after ∧ read d' x = .ok b.2)) := by
  obtain ⟨d', before, after, done, h1, h2, h3, h4, _, h5, h6⟩ :=
    crash_core w ls h hb hs hv hi d rnd hd now hnv hnew blobs hid hnd hcl k dates hdv hmem
  refine ⟨d', before, after, h1, h2, h3, h4, ?_⟩
  cases done with
  | false => exact Or.inl (h5 rfl)
  | true => exact Or.inr (h6 rfl)

/-- **C84**: a run that is not stopped comes to an end: after enough steps a reader lists exactly the blobs
of the run, each with all its bytes. -/
theorem C84_run_completes (w : Job) (ls : List (List Piece)) (h : w.OK ls) (hb : PlainBase (w.base ls))
    (hs : List Batch) (hv : ∀ b ∈ hs, b.now.valid = true) (hi : ∀ b ∈ hs, ∀ i ∈ b.ids, HexId i)
    (d : Disk) (rnd : Str) (hd : Holds w hs d.names (cyclePath (readerDataset w.dataset w.partitions) rnd w.date))
    (now : DateTime) (hnv : now.valid = true) (hnew : ∀ b ∈ hs, b.now.seconds < now.seconds)
    (blobs : List (Str × Bytes)) (hid : ∀ b ∈ blobs, HexId b.1 ∧ b.1 ≠ []) (hnd : (blobs.map Prod.fst).Nodup)
    (hcl : Clear d (frameFolder w ls now))
    (dates : List DateTime) (hdv : ∀ t ∈ dates, t.valid = true) (hmem : w.date ∈ dates) :
    ∃ steps, ∀ k, steps ≤ k → ∃ d' after, stopped d w now blobs k = .ok d' ∧
      listBlobs (readerDataset w.dataset w.partitions) rnd none (diskBlobsAt d'.names) dates = .ok after ∧
      (∀ x, beneath (cyclePath (readerDataset w.dataset w.partitions) rnd w.date) (Posix.parse x) = true →
          (x ∈ after ↔ ∃ b ∈ blobs,
            batchBlob w.dataset w.partitions (asAtName now) w.date w.rnd w.format b.1 = .ok x)) ∧
        ∀ b ∈ blobs, ∃ x, batchBlob w.dataset w.partitions (asAtName now) w.date w.rnd w.format b.1 = .ok x ∧
          x ∈ after ∧ read d' x = .ok b.2 := by
  refine ⟨((runFiles w blobs).flatMap (fun it => blobOps (frameFolder w ls now) it.1 it.2)).length, ?_⟩
  intro k hk
  obtain ⟨d', _, after, done, h1, _, h3, _, h4, _, h6⟩ :=
    crash_core w ls h hb hs hv hi d rnd hd now hnv hnew blobs hid hnd hcl k dates hdv hmem
  exact ⟨d', after, h1, h3, h6 (h4 hk)⟩

/-! ## Cases that meet the hypotheses -/

/-- An empty disk. -/
def empty : Disk := ⟨[], [], fun _ => []⟩

theorem empty_clear (cs : List Str) : Clear empty cs := ⟨nofun, nofun⟩

/-- The disk of the history of `Props/Naming`. -/
def demoDisk : Disk :=
  ⟨[], demoHistory.flatMap (fun b => (b.framed demoJob demoFolders).map (fun x => Posix.parse x.path)),
    fun _ => [1]⟩

def demoBlobs : List (Str × Bytes) := [("ba-1-1".toList, [1, 2, 3]), ("bb-1-1".toList, []), ("bc-1-1".toList, [4])]

example : ∀ b ∈ demoHistory, b.now.seconds < (⟨2024, 3, 2, 1, 0, 0⟩ : DateTime).seconds := by decide

example : (∀ b ∈ demoBlobs, HexId b.1 ∧ b.1 ≠ []) ∧ (demoBlobs.map Prod.fst).Nodup := by
  unfold HexId; decide

example : Clear demoDisk (frameFolder demoJob demoFolders ⟨2024, 3, 2, 1, 0, 0⟩) := by
  refine ⟨?_, nofun⟩
  have : ∀ q ∈ demoDisk.names, q.comps.isPrefixOf
      (frameFolder demoJob demoFolders ⟨2024, 3, 2, 1, 0, 0⟩) = false := by decide +kernel
  intro q hq _ hp
  have h := this q hq
  rw [List.isPrefixOf_iff_prefix.2 hp] at h
  cases h

/-- Stopped at step 20 of 30, in the second blob; at the last step, and after all. -/
example : ((stopped demoDisk demoJob ⟨2024, 3, 2, 1, 0, 0⟩ demoBlobs 20).toOption.map
      (fun d => d.names.length)) = some 11 ∧
    ((stopped demoDisk demoJob ⟨2024, 3, 2, 1, 0, 0⟩ demoBlobs 1000).toOption.map
      (fun d => (cycleBlobs none (diskBlobsAt d.names
        (cyclePath (readerDataset demoJob.dataset demoJob.partitions) [] demoJob.date))).toOption.map List.length))
      = some (some 3) := by
  decide +kernel

/-! ## What does not hold -/

/-- **Storing a blob is not all or nothing**: for every disk, blob and number of bytes up to all of them
there is a step after which the blob is there with only that many of its bytes. -/
theorem C84_store_atomic_fails (d : Disk) (bucket : Str) (folders : List Str) (stem ext : Str) (hb : Comp bucket)
    (hf : ∀ f ∈ folders, Comp f) (hne : folders ≠ []) (hs : stem ≠ []) (hs' : '/' ∉ stem)
    (he : ext ≠ []) (he' : '/' ∉ ext) (hdot : '.' ∉ ext) (hcl : Clear d (bucket :: folders)) (bytes : Bytes)
    (n : Nat) :
    ∃ ops k d', commitOps (join ['/'] (bucket :: folders ++ [stem ++ '.' :: ext])) bytes = .ok ops ∧
      exec d (ops.take k) = .ok d' ∧
      read d' (join ['/'] (bucket :: folders ++ [stem ++ '.' :: ext])) = .ok (bytes.take n) := by
  have hc : ∀ c ∈ bucket :: folders, Comp c := by
    intro c hc
    rcases List.mem_cons.1 hc with rfl | hc
    · exact hb
    · exact hf c hc
  have hn : Comp (stem ++ '.' :: ext) := by
    refine ⟨by simp, ?_, ?_⟩
    · intro h
      have := congrArg List.length h
      have h1 : 0 < stem.length := List.length_pos_iff.2 hs
      simp at this
      omega
    · simp [hs', he']
  have hp : Posix.parse (join ['/'] (bucket :: folders ++ [stem ++ '.' :: ext]))
      = ⟨[], bucket :: folders ++ [stem ++ '.' :: ext]⟩ := by
    apply parse_join (by simp)
    intro c hm
    rcases List.mem_append.1 hm with hm | hm
    · exact hc c hm
    · rw [List.mem_singleton.1 hm]; exact hn
  obtain ⟨d', h1, _, hcase⟩ := commit_run hcl.room (stem ++ '.' :: ext) bytes ((bucket :: folders).length + 1 + n)
  refine ⟨_, (bucket :: folders).length + 1 + n, d', commitOps_file hb hf hne hs hs' he he' hdot bytes, h1, ?_⟩
  rcases hcase with ⟨h0, _⟩ | ⟨_, h2, h3, h4⟩
  · omega
  unfold read
  rw [hp]
  have : d'.names.contains (⟨[], bucket :: folders ++ [stem ++ '.' :: ext]⟩ : Posix) = true := by
    rw [List.contains_iff_mem, h2, mem_addName]
    exact Or.inr rfl
  rw [this, if_pos rfl, h4]
  congr 2
  omega

/-- **A reader lists a blob that is being written**: a writer without frames that is stopped after the
first byte of its blob leaves a blob of one byte, which a reader of the dataset lists. -/
theorem C84_partly_written_fails :
    let name := "tests/data/year_2024/month_02/day_29/aa-1-1.jsonl.parquet".toList
    ∃ ops d', blobName "tests/data/year_2024/month_02/day_29".toList "parquet".toList "aa-1-1".toList = .ok name ∧
      commitOps name [1, 2, 3] = .ok ops ∧ exec empty (ops.take 7) = .ok d' ∧
      cycleBlobs none (diskBlobsAt d'.names (cyclePath (readerDataset demoJob.dataset demoJob.partitions) []
        demoJob.date)) = .ok [name] ∧
      read d' name = .ok [1] := by
  intro name
  have hops : commitOps name [1, 2, 3] = .ok (blobOps ["tests".toList, "data".toList, "year_2024".toList,
      "month_02".toList, "day_29".toList] "aa-1-1.jsonl.parquet".toList [1, 2, 3]) :=
    commitOps_file (bucket := "tests".toList) (folders := ["data".toList, "year_2024".toList,
      "month_02".toList, "day_29".toList]) (stem := "aa-1-1.jsonl".toList) (ext := "parquet".toList)
      (by unfold Comp; decide) (by unfold Comp; decide) (by decide) (by decide) (by decide) (by decide) (by decide)
      (by decide) [1, 2, 3]
  obtain ⟨d', h1, _, hcase⟩ := commit_run (d := empty) (empty_clear _).room (cs := ["tests".toList,
    "data".toList, "year_2024".toList, "month_02".toList, "day_29".toList]) "aa-1-1.jsonl.parquet".toList
    [1, 2, 3] 7
  rcases hcase with ⟨h0, _⟩ | ⟨_, h2, h3, h4⟩
  · exact absurd h0 (by decide)
  refine ⟨_, d', by decide +kernel, hops, h1, ?_, ?_⟩
  · rw [h2]
    decide +kernel
  · unfold read
    rw [h2]
    have hp : Posix.parse name = ⟨[], ["tests".toList, "data".toList, "year_2024".toList, "month_02".toList,
      "day_29".toList] ++ ["aa-1-1.jsonl.parquet".toList]⟩ := by decide +kernel
    rw [hp, h4]
    rfl

end Mabel.Disk
