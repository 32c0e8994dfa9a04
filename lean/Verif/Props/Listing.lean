import Verif.Lemmas.Frames
import Verif.Lemmas.Dates

/-!
# Properties of the listing of blobs: C11 (reading), C18, C19, C20
-/

namespace Mabel.Listing
open Mabel.Py Mabel.Spec

/-! ## C18: the listing is sound and ordered -/

theorem frameBlobs_sublist (blobs : List Str) : (frameBlobs blobs).Sublist blobs := by
  unfold frameBlobs
  simp only
  split
  · exact List.Sublist.refl _
  · split
    · exact List.nil_sublist _
    · exact List.filter_sublist

theorem mem_segmentBlobs {chosen : Str} {blobs : List Str} {b : Str} (h : b ∈ segmentBlobs chosen blobs) :
    b ∈ blobs := by
  unfold segmentBlobs at h
  obtain ⟨fo, _, hb⟩ := List.mem_flatMap.1 h
  exact (List.mem_filter.1 ((frameBlobs_sublist _).subset hb)).1

theorem applyFilter_subset {pf : Option PartitionFilter} {blobs bs parts : List Str}
    (h : applyFilter pf blobs = .ok (bs, parts)) : ∀ b ∈ bs, b ∈ blobs := by
  unfold applyFilter at h
  simp only at h
  split at h
  · cases h; exact fun b hb => hb
  · split at h
    · cases h
    · split at h
      · cases h; exact fun b hb => (List.mem_filter.1 hb).1
      · cases h; exact fun b hb => hb

theorem mem_cycleBlobs {pf : Option PartitionFilter} {stored l : List Str} {b : Str}
    (h : cycleBlobs pf stored = .ok l) (hb : b ∈ l) :
    b ∈ stored ∧ contains "BACKOUT".toList b = false := by
  unfold cycleBlobs at h
  simp only at h
  have key : b ∈ stored.filter (fun b => !contains "BACKOUT".toList b) := by
    split at h
    · cases h
    · rename_i bs parts e
      split at h
      · cases h
        exact applyFilter_subset e b (mem_segmentBlobs hb)
      · cases h
        exact applyFilter_subset e b (List.mem_filter.1 (mem_segmentBlobs hb)).1
  obtain ⟨h1, h2⟩ := List.mem_filter.1 key
  exact ⟨h1, by simpa using h2⟩

theorem mapM_ok {α β : Type} {f : α → Except Err β} {l : List α} {r : List β} (h : l.mapM f = .ok r) :
    List.Forall₂ (fun a b => f a = .ok b) l r := by
  induction l generalizing r with
  | nil => simp only [List.mapM_nil] at h; cases h; exact .nil
  | cons a l ih =>
    rw [List.mapM_cons] at h
    cases ha : f a with
    | error e => rw [ha] at h; cases h
    | ok b =>
      rw [ha] at h
      cases hl : l.mapM f with
      | error e => rw [hl] at h; cases h
      | ok bs => rw [hl] at h; cases h; exact .cons ha (ih hl)

/-- **C18 (sound and ordered).**  Every blob that is listed is one that storage lists beneath the path
of one of the dates; the list is in sorted order. -/
theorem C18_sound (dataset rnd : Str) (pf : Option PartitionFilter) (blobsAt : Paths.Posix → List Str)
    (dates : List DateTime) (l : List Str) (h : listBlobs dataset rnd pf blobsAt dates = .ok l) :
    (∀ b ∈ l, ∃ d ∈ dates, b ∈ blobsAt (cyclePath dataset rnd d)) ∧
    l.Pairwise (fun a b => strLe a b = true) := by
  unfold listBlobs at h
  split at h
  · cases h
  · rename_i ls hls
    cases h
    refine ⟨?_, sorted_pairwise strLe_preorder _⟩
    intro b hb
    rw [mem_sorted, List.mem_flatten] at hb
    obtain ⟨m, hm, hbm⟩ := hb
    have hf := mapM_ok hls
    obtain ⟨p, hp, hpm⟩ : ∃ p ∈ visited dataset rnd dates, cycleBlobs pf (blobsAt p) = .ok m := by
      clear hls
      generalize visited dataset rnd dates = v at hf
      induction hf with
      | nil => simp at hm
      | cons h1 h2 ih =>
        rcases List.mem_cons.1 hm with rfl | hm
        · exact ⟨_, by simp, h1⟩
        · obtain ⟨p, hp, e⟩ := ih hm
          exact ⟨p, by simp [hp], e⟩
    unfold visited at hp
    rw [dedup_mem] at hp
    obtain ⟨d, hd, rfl⟩ := List.mem_map.1 hp
    exact ⟨d, hd, (mem_cycleBlobs hpm hbm).1⟩

/-- **C11 (reading).**  Whatever storage holds, no blob with BACKOUT in its name is ever listed. -/
theorem C11_reader_never_lists_backout (dataset rnd : Str) (pf : Option PartitionFilter)
    (blobsAt : Paths.Posix → List Str) (dates : List DateTime) (l : List Str)
    (h : listBlobs dataset rnd pf blobsAt dates = .ok l) :
    ∀ b ∈ l, ¬ ∃ x y, b = x ++ "BACKOUT".toList ++ y := by
  unfold listBlobs at h
  split at h
  · cases h
  · rename_i ls hls
    cases h
    intro b hb
    rw [mem_sorted, List.mem_flatten] at hb
    obtain ⟨m, hm, hbm⟩ := hb
    have hf := mapM_ok hls
    obtain ⟨p, hpm⟩ : ∃ p, cycleBlobs pf (blobsAt p) = .ok m := by
      clear hls
      generalize visited dataset rnd dates = v at hf
      induction hf with
      | nil => simp at hm
      | cons h1 h2 ih =>
        rcases List.mem_cons.1 hm with rfl | hm
        · exact ⟨_, h1⟩
        · exact ih hm
    exact contains_false.1 (mem_cycleBlobs hpm hbm).2

/-- A listing with something to leave out. -/
example : listBlobs "data/".toList [] none
    (fun _ => ["data/b.jsonl".toList, "data/BACKOUT/c.jsonl".toList, "data/a.jsonl".toList])
    [⟨2024, 1, 1, 0, 0, 0⟩] = .ok ["data/a.jsonl".toList, "data/b.jsonl".toList] := by decide

/-! ### No duplicates -/

theorem segmentBlobs_plain (blobs : List Str) (hs : ∀ b ∈ blobs, '/' ∈ b) :
    segmentBlobs [] blobs = frameBlobs blobs := by
  unfold segmentBlobs
  simp only [if_true, List.flatMap_cons, List.flatMap_nil, List.append_nil, List.nil_append]
  rw [List.filter_eq_self.2]
  intro b hb
  obtain ⟨x, y, e⟩ := List.append_of_mem (hs b hb)
  exact contains_iff.2 ⟨x, y, by rw [e]; simp⟩

theorem segmentBlobs_sublist_nil (blobs : List Str) : (segmentBlobs [] blobs).Sublist blobs := by
  unfold segmentBlobs
  simp only [if_true, List.flatMap_cons, List.flatMap_nil, List.append_nil, List.nil_append]
  exact (frameBlobs_sublist _).trans List.filter_sublist

theorem partitionings_nil {blobs : List Str} (h : ∀ b ∈ blobs, contains "/by_".toList b = false) :
    partitionings blobs = [] := by
  unfold partitionings
  rw [List.filter_eq_nil_iff.2 (fun b hb => by rw [h b hb]; exact Bool.false_ne_true)]
  rfl

theorem cycleBlobs_plain {stored l : List Str} (h : ∀ b ∈ stored, contains "/by_".toList b = false)
    (e : cycleBlobs none stored = .ok l) :
    l = segmentBlobs [] (stored.filter (fun b => !contains "BACKOUT".toList b)) := by
  unfold cycleBlobs applyFilter at e
  simp only at e
  rw [partitionings_nil (fun b hb => h b (List.mem_filter.1 hb).1)] at e
  simp only [sorted, List.getLast?_nil] at e
  cases e; rfl

/-- **C18 (no duplicates; partial).**  If storage lists no blob twice, beneath one path or beneath the
paths of two dates, and the data is not divided into `by_` partitionings, no blob is listed twice.
What is missing: with partitionings it holds when no segment's name is the beginning of another's
(`C20_each_once_partial`) and fails otherwise (`C20_bleed_fails`). -/
theorem C18_no_duplicates_partial (dataset rnd : Str) (blobsAt : Paths.Posix → List Str)
    (dates : List DateTime) (l : List Str) (h : listBlobs dataset rnd none blobsAt dates = .ok l)
    (hnd : ∀ p, (blobsAt p).Nodup) (hby : ∀ p, ∀ b ∈ blobsAt p, contains "/by_".toList b = false)
    (hdis : ∀ p q, p ≠ q → ∀ b, b ∈ blobsAt p → b ∉ blobsAt q) : l.Nodup := by
  unfold listBlobs at h
  split at h
  · cases h
  · rename_i ls hls
    cases h
    rw [(sorted_perm strLe _).nodup_iff]
    have hf := mapM_ok hls
    have hv : (visited dataset rnd dates).Nodup := dedup_nodup _
    clear hls
    generalize visited dataset rnd dates = v at hf hv
    have key : ls.flatten.Nodup ∧ ∀ b ∈ ls.flatten, ∃ p ∈ v, b ∈ blobsAt p := by
      induction hf with
      | nil => simp
      | @cons p m ps ms h1 h2 ih =>
        rw [List.nodup_cons] at hv
        obtain ⟨ih1, ih2⟩ := ih hv.2
        have hm := cycleBlobs_plain (hby p) h1
        have hsub : m.Sublist (blobsAt p) := by
          rw [hm]; exact (segmentBlobs_sublist_nil _).trans List.filter_sublist
        refine ⟨?_, ?_⟩
        · rw [List.flatten_cons, List.nodup_append]
          refine ⟨hsub.nodup (hnd p), ih1, ?_⟩
          intro a ha b hb e
          subst e
          obtain ⟨q, hq, hbq⟩ := ih2 a hb
          refine hdis p q ?_ a (hsub.subset ha) hbq
          rintro rfl
          exact hv.1 hq
        · intro b hb
          rw [List.flatten_cons, List.mem_append] at hb
          rcases hb with hb | hb
          · exact ⟨p, by simp, hsub.subset hb⟩
          · obtain ⟨q, hq, hbq⟩ := ih2 b hb
            exact ⟨q, by simp [hq], hbq⟩
    exact key.1

/-- Two dates with a blob each. -/
example : listBlobs "d/{dd}/".toList [] none
    (fun p => if p = ⟨[], ["d".toList, "01".toList]⟩ then ["d/01/a.jsonl".toList]
      else if p = ⟨[], ["d".toList, "02".toList]⟩ then ["d/02/a.jsonl".toList] else [])
    [⟨2024, 1, 2, 0, 0, 0⟩, ⟨2024, 1, 1, 0, 0, 0⟩, ⟨2024, 1, 2, 1, 0, 0⟩]
    = .ok ["d/01/a.jsonl".toList, "d/02/a.jsonl".toList] := by decide

/-! ## C19: frames -/

/-- **C19.**  For data stored in `as_at_` frames, where no frame's name is the beginning of another's,
the blobs listed are exactly those of the newest frame that is complete and not ignored, without its
completion marker. -/
theorem C19_newest_frame (bs : List Framed) (h : ∀ b ∈ bs, b.OK)
    (hby : ∀ b ∈ bs, contains "/by_".toList b.path = false)
    (hbo : ∀ b ∈ bs, contains "BACKOUT".toList b.path = false)
    (hu : Unambiguous bs) (f : Str) (hn : Newest bs f) :
    cycleBlobs none (bs.map Framed.path)
      = .ok ((bs.filter (fun b => decide (b.frame = f ∧ ¬ b.Marker))).map Framed.path) := by
  have h1 : (bs.map Framed.path).filter (fun b => !contains "BACKOUT".toList b) = bs.map Framed.path := by
    rw [List.filter_eq_self]
    intro p hp
    obtain ⟨b, hb, rfl⟩ := List.mem_map.1 hp
    rw [hbo b hb]; rfl
  have h2 : partitionings (bs.map Framed.path) = [] := by
    apply partitionings_nil
    intro p hp
    obtain ⟨b, hb, rfl⟩ := List.mem_map.1 hp
    exact hby b hb
  unfold cycleBlobs applyFilter
  simp only [h1, h2, sorted, List.getLast?_nil]
  rw [segmentBlobs_plain, frameBlobs_newest h hu hn]
  intro p hp
  obtain ⟨b, hb, rfl⟩ := List.mem_map.1 hp
  simp [Framed.path]

/-- **C19 (no valid frame).**  If every complete frame is ignored, nothing is listed. -/
theorem C19_no_valid_frame (bs : List Framed) (h : ∀ b ∈ bs, b.OK)
    (hby : ∀ b ∈ bs, contains "/by_".toList b.path = false)
    (hbo : ∀ b ∈ bs, contains "BACKOUT".toList b.path = false)
    (hn : ∀ f, Complete bs f → Ignored bs f) :
    cycleBlobs none (bs.map Framed.path) = .ok [] := by
  have h1 : (bs.map Framed.path).filter (fun b => !contains "BACKOUT".toList b) = bs.map Framed.path := by
    rw [List.filter_eq_self]
    intro p hp
    obtain ⟨b, hb, rfl⟩ := List.mem_map.1 hp
    rw [hbo b hb]; rfl
  have h2 : partitionings (bs.map Framed.path) = [] := by
    apply partitionings_nil
    intro p hp
    obtain ⟨b, hb, rfl⟩ := List.mem_map.1 hp
    exact hby b hb
  unfold cycleBlobs applyFilter
  simp only [h1, h2, sorted, List.getLast?_nil]
  rw [segmentBlobs_plain, frameBlobs_none h hn]
  intro p hp
  obtain ⟨b, hb, rfl⟩ := List.mem_map.1 hp
  simp [Framed.path]

/-- Three frames: a complete one, a newer complete one that is ignored, and a newest that is not
complete. -/
def threeFrames : List Framed :=
  [⟨"d".toList, "as_at_1".toList, "frame.complete".toList⟩, ⟨"d".toList, "as_at_1".toList, "x.jsonl".toList⟩,
   ⟨"d".toList, "as_at_2".toList, "x.jsonl".toList⟩, ⟨"d".toList, "as_at_2".toList, "frame.complete".toList⟩,
   ⟨"d".toList, "as_at_2".toList, "frame.ignore".toList⟩, ⟨"d".toList, "as_at_3".toList, "x.jsonl".toList⟩]

theorem threeFrames_ok : ∀ b ∈ threeFrames, b.OK := by
  intro b hb
  simp only [threeFrames, List.mem_cons, List.not_mem_nil, or_false] at hb
  rcases hb with rfl | rfl | rfl | rfl | rfl | rfl <;> exact ⟨by decide, by decide, by decide, by decide, by decide, by decide, by decide⟩

theorem threeFrames_newest : Newest threeFrames "as_at_1".toList := by
  refine ⟨⟨_, List.mem_cons_self, by decide, by decide⟩, ?_, ?_⟩
  · rintro ⟨b, hb, h1, h2⟩
    simp only [threeFrames, List.mem_cons, List.not_mem_nil, or_false] at hb
    rcases hb with rfl | rfl | rfl | rfl | rfl | rfl <;> revert h1 h2 <;> decide
  · rintro g ⟨b, hb, h1, h2⟩ hi
    have h3 : Ignored threeFrames "as_at_2".toList :=
      ⟨⟨"d".toList, "as_at_2".toList, "frame.ignore".toList⟩, by simp [threeFrames], by decide, by decide⟩
    simp only [threeFrames, List.mem_cons, List.not_mem_nil, or_false] at hb
    rcases hb with rfl | rfl | rfl | rfl | rfl | rfl
    · subst h1; decide
    · exact absurd h2 (by decide)
    · exact absurd h2 (by decide)
    · subst h1; exact absurd h3 hi
    · exact absurd h2 (by decide)
    · exact absurd h2 (by decide)

example : (∀ b ∈ threeFrames, b.OK) ∧ Newest threeFrames "as_at_1".toList ∧
    (∀ b ∈ threeFrames, contains "/by_".toList b.path = false) ∧
    (∀ b ∈ threeFrames, contains "BACKOUT".toList b.path = false) ∧
    cycleBlobs none (threeFrames.map Framed.path) = .ok ["d/as_at_1/x.jsonl".toList] :=
  ⟨threeFrames_ok, threeFrames_newest, by decide, by decide, by decide⟩

/-- **Without unambiguous names it fails**: with frames `as_at_1` (newest valid) and `as_at_10`
(incomplete), the data of the incomplete frame is listed too. -/
theorem C19_ambiguous_names_fails :
    cycleBlobs none ["d/as_at_1/x.jsonl".toList, "d/as_at_1/frame.complete".toList,
      "d/as_at_10/y.jsonl".toList] = .ok ["d/as_at_1/x.jsonl".toList, "d/as_at_10/y.jsonl".toList] := by
  decide

/-! ## C20: segments -/

theorem segmentBlobs_eq {bs : List Seg} (h : ∀ b ∈ bs, b.OK) {c : Str} (hc : ∀ b ∈ bs, b.by_ = c)
    (hne : bs ≠ []) (hu : ∀ b ∈ bs, ∀ b' ∈ bs, b.segment <+: b'.segment → b.segment = b'.segment) :
    segmentBlobs c (bs.map Seg.path) =
      (dedup (bs.map (·.segment))).flatMap
        (fun s => frameBlobs ((bs.filter (fun b => b.segment = s)).map Seg.path)) := by
  obtain ⟨b0, hb0⟩ := List.exists_mem_of_ne_nil bs hne
  have hby : "by_".toList <+: c := hc b0 hb0 ▸ (h b0 hb0).by_by
  have hcs : '/' ∉ c := hc b0 hb0 ▸ (h b0 hb0).by_flat
  have hcne : c ≠ [] := by
    rintro rfl
    exact absurd (List.prefix_nil.1 hby) (by decide)
  unfold segmentBlobs
  simp only [hcne, if_false, List.map_map]
  have hmap : bs.map ((fun b => optStr (safeGetNext (split '/' b) c)) ∘ Seg.path) = bs.map (·.segment) := by
    apply List.map_congr_left
    intro b hb
    simp only [Function.comp]
    rw [← hc b hb, safeGetNext_path (h b hb)]
    rfl
  rw [hmap]
  rw [List.flatMap_def, List.flatMap_def]
  congr 1
  apply List.map_congr_left
  intro s hs
  rw [dedup_mem] at hs
  obtain ⟨b1, hb1, hb1s⟩ := List.mem_map.1 hs
  congr 1
  apply filter_map_seg
  intro b hb
  have hss : '/' ∉ s := hb1s ▸ (h b1 hb1).segment_flat
  rw [Bool.eq_iff_iff, contains_segment (h b hb) hby hcs hss, decide_eq_true_eq]
  constructor
  · rintro ⟨_, hp⟩
    rw [← hb1s] at hp ⊢
    exact (hu b1 hb1 b hb hp).symm
  · rintro rfl
    exact ⟨hc b hb, List.prefix_rfl⟩

/-- The partitioning a reader uses: the greatest by name. -/
structure Chosen (bs : List Seg) (c : Str) : Prop where
  present : ∃ b ∈ bs, b.by_ = c
  greatest : ∀ b ∈ bs, strLe b.by_ c = true

theorem getLast_sorted {l : List Str} {c : Str} (hc : c ∈ l) (hmax : ∀ g ∈ l, strLe g c = true) :
    (sorted strLe l).getLast? = some c := by
  have hs := sorted_pairwise strLe_preorder l
  have hm : c ∈ sorted strLe l := mem_sorted.2 hc
  have hmx : ∀ g ∈ sorted strLe l, strLe g c = true := fun g hg => hmax g (mem_sorted.1 hg)
  generalize sorted strLe l = r at *
  have hne : r ≠ [] := List.ne_nil_of_mem hm
  obtain ⟨i, x, rfl⟩ : ∃ i x, r = i ++ [x] := ⟨_, _, (List.dropLast_concat_getLast hne).symm⟩
  rw [List.getLast?_append]
  simp only [List.getLast?_singleton, Option.some_or, Option.some.injEq]
  rcases List.mem_append.1 hm with hi | hx
  · exact strLe_antisymm (hmx x (by simp)) ((List.pairwise_append.1 hs).2.2 c hi x (by simp))
  · exact (List.mem_singleton.1 hx).symm

/-- The listing for partitioned data: segment by segment, from the chosen partitioning only. -/
theorem cycleBlobs_segments {bs : List Seg} (h : ∀ b ∈ bs, b.OK)
    (hbo : ∀ b ∈ bs, contains "BACKOUT".toList b.path = false) {c : Str} (hch : Chosen bs c)
    (hu : ∀ b ∈ bs, b.by_ = c → ∀ b' ∈ bs, b'.by_ = c → b.segment <+: b'.segment →
      b.segment = b'.segment) :
    cycleBlobs none (bs.map Seg.path) =
      .ok ((dedup ((bs.filter (fun b => b.by_ = c)).map (·.segment))).flatMap
        (fun s => frameBlobs ((bs.filter (fun b => b.by_ = c ∧ b.segment = s)).map Seg.path))) := by
  obtain ⟨⟨b0, hb0, hb0c⟩, hg⟩ := hch
  have h1 : (bs.map Seg.path).filter (fun b => !contains "BACKOUT".toList b) = bs.map Seg.path := by
    rw [List.filter_eq_self]
    intro p hp
    obtain ⟨b, hb, rfl⟩ := List.mem_map.1 hp
    rw [hbo b hb]; rfl
  have hl : (sorted strLe (dedup (bs.map (·.by_)))).getLast? = some c := by
    apply getLast_sorted
    · rw [dedup_mem]; exact List.mem_map.2 ⟨b0, hb0, hb0c⟩
    · intro g hgm
      rw [dedup_mem] at hgm
      obtain ⟨b, hb, rfl⟩ := List.mem_map.1 hgm
      exact hg b hb
  have hby : "by_".toList <+: c := hb0c ▸ (h b0 hb0).by_by
  have hcs : '/' ∉ c := hb0c ▸ (h b0 hb0).by_flat
  have hflt : (bs.map Seg.path).filter (fun b => contains (['/'] ++ c ++ ['/']) b)
      = (bs.filter (fun b => b.by_ = c)).map Seg.path := by
    apply filter_map_seg
    intro b hb
    rw [Bool.eq_iff_iff, contains_chosen (h b hb) hby hcs, decide_eq_true_eq]
  unfold cycleBlobs applyFilter
  simp only [h1, partitionings_eq h, hl, hflt]
  rw [segmentBlobs_eq]
  · congr 2
    funext s
    rw [List.filter_filter]
    congr 3
    funext b
    simp [Bool.and_comm, Bool.decide_and]
  · intro b hb; exact h b (List.mem_filter.1 hb).1
  · intro b hb; simpa using (List.mem_filter.1 hb).2
  · exact List.ne_nil_of_mem (List.mem_filter.2 ⟨hb0, by simpa using hb0c⟩)
  · intro b hb b' hb' hp
    obtain ⟨m1, e1⟩ := List.mem_filter.1 hb
    obtain ⟨m2, e2⟩ := List.mem_filter.1 hb'
    exact hu b m1 (by simpa using e1) b' m2 (by simpa using e2) hp

/-- Grouping by a key and concatenating the groups gives the elements back. -/
theorem flatMap_groups {α : Type} (key : α → Str) (l : List α) (ks : List Str) (hnd : ks.Nodup)
    (hk : ∀ x ∈ l, key x ∈ ks) : (ks.flatMap (fun k => l.filter (fun x => key x = k))).Perm l := by
  induction ks generalizing l with
  | nil =>
    cases l with
    | nil => exact List.Perm.refl _
    | cons x l => exact absurd (hk x (by simp)) (by simp)
  | cons k ks ih =>
    rw [List.nodup_cons] at hnd
    rw [List.flatMap_cons]
    have hrest : ks.flatMap (fun k' => l.filter (fun x => key x = k'))
        = ks.flatMap (fun k' => (l.filter (fun x => ¬ key x = k)).filter (fun x => key x = k')) := by
      rw [List.flatMap_def, List.flatMap_def]
      congr 1
      apply List.map_congr_left
      intro k' hk'
      rw [List.filter_filter]
      apply List.filter_congr
      intro x _
      by_cases hx : key x = k'
      · have : k' ≠ k := by rintro rfl; exact hnd.1 hk'
        simp [hx, this]
      · simp [hx]
    rw [hrest]
    have := ih (l.filter (fun x => ¬ key x = k)) hnd.2 (by
      intro x hx
      obtain ⟨h1, h2⟩ := List.mem_filter.1 hx
      rcases List.mem_cons.1 (hk x h1) with e | hin
      · simp [e] at h2
      · exact hin)
    refine (List.Perm.append_left _ this).trans ?_
    have e : (l.filter (fun x => ¬ key x = k)) = l.filter (fun x => !decide (key x = k)) := by
      apply List.filter_congr; intro x _; simp
    rw [e]
    exact List.filter_append_perm _ l

theorem frameBlobs_unframed {blobs : List Str} (h : ∀ b ∈ blobs, contains "as_at_".toList b = false) :
    frameBlobs blobs = blobs := by
  unfold frameBlobs
  rw [List.filter_eq_nil_iff.2 (fun b hb => by rw [h b hb]; exact Bool.false_ne_true)]
  simp [dedup]

/-- **C20 (each blob once; partial).**  For data in segments of a partitioning where no segment's name
is the beginning of another's, every blob of the chosen partitioning is listed exactly once, and no
other.  What is missing: the restriction on names, without which it fails (`C20_bleed_fails`). -/
theorem C20_each_once_partial (bs : List Seg) (h : ∀ b ∈ bs, b.OK)
    (hbo : ∀ b ∈ bs, contains "BACKOUT".toList b.path = false)
    (has : ∀ b ∈ bs, contains "as_at_".toList b.path = false) (c : Str) (hch : Chosen bs c)
    (hu : ∀ b ∈ bs, b.by_ = c → ∀ b' ∈ bs, b'.by_ = c → b.segment <+: b'.segment →
      b.segment = b'.segment) :
    ∃ l, cycleBlobs none (bs.map Seg.path) = .ok l ∧
      l.Perm ((bs.filter (fun b => b.by_ = c)).map Seg.path) := by
  refine ⟨_, cycleBlobs_segments h hbo hch hu, ?_⟩
  have e : ∀ s, frameBlobs ((bs.filter (fun b => b.by_ = c ∧ b.segment = s)).map Seg.path)
      = (((bs.filter (fun b => b.by_ = c)).filter (fun b => b.segment = s))).map Seg.path := by
    intro s
    rw [frameBlobs_unframed]
    · rw [List.filter_filter]
      congr 2
      funext b
      simp [Bool.and_comm, Bool.decide_and]
    · intro p hp
      obtain ⟨b, hb, rfl⟩ := List.mem_map.1 hp
      exact has b (List.mem_filter.1 hb).1
  simp only [e]
  rw [← List.map_flatMap]
  apply List.Perm.map
  exact flatMap_groups (fun b : Seg => b.segment) _ _ (dedup_nodup _) (fun x hx => by
    rw [dedup_mem]; exact List.mem_map.2 ⟨x, hx, rfl⟩)

/-- Two hours of data and another partitioning of the same data. -/
def twoHours : List Seg :=
  [⟨"d".toList, "by_hour".toList, "hour=01".toList, "x.jsonl".toList⟩,
   ⟨"d".toList, "by_hour".toList, "hour=10".toList, "y.jsonl".toList⟩,
   ⟨"d".toList, "by_day".toList, "day=1".toList, "z.jsonl".toList⟩]

example : (∀ b ∈ twoHours, b.OK) ∧ Chosen twoHours "by_hour".toList ∧
    (∀ b ∈ twoHours, contains "BACKOUT".toList b.path = false) ∧
    (∀ b ∈ twoHours, contains "as_at_".toList b.path = false) ∧
    cycleBlobs none (twoHours.map Seg.path)
      = .ok ["d/by_hour/hour=01/x.jsonl".toList, "d/by_hour/hour=10/y.jsonl".toList] := by
  refine ⟨?_, ⟨⟨_, List.mem_cons_self, by decide⟩, by decide⟩, by decide, by decide, by decide⟩
  intro b hb
  simp only [twoHours, List.mem_cons, List.not_mem_nil, or_false] at hb
  rcases hb with rfl | rfl | rfl <;>
    exact ⟨by decide, by decide, by decide, by decide, by decide, by decide, by decide⟩

/-- **Segments do bleed into one another**: with `hour=1` and `hour=10`, the blobs of hour 10 are
listed twice. -/
theorem C20_bleed_fails :
    cycleBlobs none ["d/by_hour/hour=1/x.jsonl".toList, "d/by_hour/hour=10/y.jsonl".toList]
      = .ok ["d/by_hour/hour=1/x.jsonl".toList, "d/by_hour/hour=10/y.jsonl".toList,
          "d/by_hour/hour=10/y.jsonl".toList] := by decide

/-- With frames it is worse: the newer frame of hour 10 hides the data of hour 1 altogether. -/
theorem C20_bleed_hides_fails :
    cycleBlobs none ["d/by_hour/hour=1/as_at_1/x.jsonl".toList,
        "d/by_hour/hour=1/as_at_1/frame.complete".toList,
        "d/by_hour/hour=10/as_at_2/y.jsonl".toList,
        "d/by_hour/hour=10/as_at_2/frame.complete".toList]
      = .ok ["d/by_hour/hour=10/as_at_2/y.jsonl".toList, "d/by_hour/hour=10/as_at_2/y.jsonl".toList] := by
  decide

/-! ### Frames within segments -/

/-- A blob of a frame within a segment: `pre/by/segment/frame/name`. -/
structure SegFramed where
  pre : Str
  by_ : Str
  segment : Str
  frame : Str
  name : Str

def SegFramed.seg (b : SegFramed) : Seg := ⟨b.pre, b.by_, b.segment, b.frame ++ '/' :: b.name⟩
def SegFramed.framed (b : SegFramed) : Framed := ⟨b.pre ++ '/' :: b.by_ ++ '/' :: b.segment, b.frame, b.name⟩

theorem seg_framed_path (b : SegFramed) : b.seg.path = b.framed.path := by
  simp [SegFramed.seg, SegFramed.framed, Seg.path, Framed.path]

/-- **C19 and C20 together.**  For data in segments, each of them in frames (with unambiguous names of
segments and frames), the blobs listed are, exactly once each, those of the newest valid frame of
their own segment: the frame of one segment never decides about another. -/
theorem C20_frames_per_segment_partial (bs : List SegFramed) (h1 : ∀ b ∈ bs, b.seg.OK)
    (h2 : ∀ b ∈ bs, b.framed.OK) (hbo : ∀ b ∈ bs, contains "BACKOUT".toList b.seg.path = false)
    (c : Str) (hch : Chosen (bs.map SegFramed.seg) c)
    (hu : ∀ b ∈ bs, b.by_ = c → ∀ b' ∈ bs, b'.by_ = c → b.segment <+: b'.segment →
      b.segment = b'.segment)
    (newest : Str → Str)
    (hn : ∀ b ∈ bs, b.by_ = c →
      Unambiguous ((bs.filter (fun x => x.by_ = c ∧ x.segment = b.segment)).map SegFramed.framed) ∧
      Newest ((bs.filter (fun x => x.by_ = c ∧ x.segment = b.segment)).map SegFramed.framed)
        (newest b.segment)) :
    ∃ l, cycleBlobs none (bs.map fun b => b.framed.path) = .ok l ∧
      l.Perm ((bs.filter (fun b => b.by_ = c ∧ b.frame = newest b.segment ∧ ¬ b.framed.Marker)).map
        fun b => b.framed.path) := by
  have hp : (bs.map fun b => b.framed.path) = (bs.map SegFramed.seg).map Seg.path := by
    rw [List.map_map]
    apply List.map_congr_left
    intro b _
    exact (seg_framed_path b).symm
  have hseg : ∀ b ∈ bs.map SegFramed.seg, b.OK := by
    intro b hb; obtain ⟨x, hx, rfl⟩ := List.mem_map.1 hb; exact h1 x hx
  have hcyc := cycleBlobs_segments hseg (by
    intro b hb; obtain ⟨x, hx, rfl⟩ := List.mem_map.1 hb; exact hbo x hx) hch (by
    intro b hb hbc b' hb' hb'c
    obtain ⟨x, hx, rfl⟩ := List.mem_map.1 hb
    obtain ⟨y, hy, rfl⟩ := List.mem_map.1 hb'
    exact hu x hx hbc y hy hb'c)
  rw [hp]
  refine ⟨_, hcyc, ?_⟩
  have hsegs : ((bs.map SegFramed.seg).filter (fun b => b.by_ = c)).map (·.segment)
      = (bs.filter (fun b => b.by_ = c)).map (·.segment) := by
    rw [List.filter_map, List.map_map]; rfl
  rw [hsegs]
  have e : ∀ s ∈ dedup ((bs.filter (fun b => b.by_ = c)).map (·.segment)),
      frameBlobs (((bs.map SegFramed.seg).filter (fun b => b.by_ = c ∧ b.segment = s)).map Seg.path)
      = ((bs.filter (fun b => b.by_ = c ∧ b.frame = newest b.segment ∧ ¬ b.framed.Marker)).filter
          (fun b => b.segment = s)).map (fun b => b.framed.path) := by
    intro s hs
    rw [dedup_mem] at hs
    obtain ⟨b0, hb0, rfl⟩ := List.mem_map.1 hs
    obtain ⟨hb0m, hb0c⟩ := List.mem_filter.1 hb0
    obtain ⟨hu0, hn0⟩ := hn b0 hb0m (by simpa using hb0c)
    have e1 : ((bs.map SegFramed.seg).filter (fun b => b.by_ = c ∧ b.segment = b0.segment)).map Seg.path
        = ((bs.filter (fun x => x.by_ = c ∧ x.segment = b0.segment)).map SegFramed.framed).map
            Framed.path := by
      rw [List.filter_map, List.map_map, List.map_map]
      apply List.map_congr_left
      intro b _
      exact seg_framed_path b
    rw [e1, frameBlobs_newest (by
      intro b hb
      obtain ⟨x, hx, rfl⟩ := List.mem_map.1 hb
      exact h2 x (List.mem_filter.1 hx).1) hu0 hn0, List.filter_map, List.map_map, List.filter_filter,
      List.filter_filter]
    have e2 : (bs.filter fun a => ((fun b : Framed => decide (b.frame = newest b0.segment ∧ ¬ b.Marker)) ∘
          SegFramed.framed) a && decide (a.by_ = c ∧ a.segment = b0.segment))
        = bs.filter fun a => decide (a.segment = b0.segment) &&
          decide (a.by_ = c ∧ a.frame = newest a.segment ∧ ¬ a.framed.Marker) := by
      apply List.filter_congr
      intro b _
      rw [Bool.eq_iff_iff]
      simp only [Function.comp, Bool.and_eq_true, decide_eq_true_eq]
      constructor
      · rintro ⟨⟨x1, x2⟩, x3, x4⟩
        exact ⟨x4, x3, by rw [x4]; exact x1, x2⟩
      · rintro ⟨x4, x3, x1, x2⟩
        exact ⟨⟨by rw [← x4]; exact x1, x2⟩, x3, x4⟩
    rw [e2]
    rfl
  have e' : (dedup ((bs.filter (fun b => b.by_ = c)).map (·.segment))).flatMap
      (fun s => frameBlobs (((bs.map SegFramed.seg).filter (fun b => b.by_ = c ∧ b.segment = s)).map
        Seg.path))
      = (dedup ((bs.filter (fun b => b.by_ = c)).map (·.segment))).flatMap
      (fun s => ((bs.filter (fun b => b.by_ = c ∧ b.frame = newest b.segment ∧ ¬ b.framed.Marker)).filter
          (fun b => b.segment = s)).map (fun b => b.framed.path)) := by
    rw [List.flatMap_def, List.flatMap_def]
    congr 1
    exact List.map_congr_left e
  rw [e', ← List.map_flatMap]
  apply List.Perm.map
  apply flatMap_groups (fun b : SegFramed => b.segment) _ _ (dedup_nodup _)
  intro x hx
  obtain ⟨hx1, hx2⟩ := List.mem_filter.1 hx
  rw [dedup_mem]
  have hxc : x.by_ = c := by
    have := hx2
    rw [decide_eq_true_eq] at this
    exact this.1
  exact List.mem_map.2 ⟨x, List.mem_filter.2 ⟨hx1, by simpa using hxc⟩, rfl⟩

/-- Two hours, the newest frame of one of them incomplete. -/
example : cycleBlobs none ["d/by_hour/hour=01/as_at_1/x.jsonl".toList,
        "d/by_hour/hour=01/as_at_1/frame.complete".toList,
        "d/by_hour/hour=01/as_at_2/x.jsonl".toList,
        "d/by_hour/hour=10/as_at_2/y.jsonl".toList,
        "d/by_hour/hour=10/as_at_2/frame.complete".toList]
      = .ok ["d/by_hour/hour=01/as_at_1/x.jsonl".toList, "d/by_hour/hour=10/as_at_2/y.jsonl".toList] := by
  decide

end Mabel.Listing
