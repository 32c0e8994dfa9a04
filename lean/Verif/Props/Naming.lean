import Verif.Lemmas.Naming
import Verif.Props.Targets

/-!
# Properties of writing and reading together: C22, C11
-/

namespace Mabel.Naming
open Mabel.Py Mabel.Paths Mabel.Listing Mabel.Spec

/-! ## The frames of a history -/

/-- Identifiers of blobs are hexadecimal digits and dashes. -/
def HexId (i : Str) : Prop := ∀ c ∈ i, c ∈ "0123456789abcdef-".toList

/-- The folder of the dataset and date looks like none of the special folders. -/
structure PlainBase (s : Str) : Prop where
  as_at : contains "as_at_".toList s = false
  by_ : contains "/by_".toList s = false
  backout : contains "BACKOUT".toList s = false
  complete : contains "/frame.complete".toList s = false

/-- The blobs and markers of a run, part by part. -/
def Batch.framed (w : Job) (ls : List (List Piece)) (b : Batch) : List Framed :=
  b.ids.map (fun i => ⟨w.base ls, asAtName b.now, i ++ extension w.format⟩) ++
    ((if b.complete then [⟨w.base ls, asAtName b.now, "frame.complete".toList⟩] else []) ++
      (if b.ignored then [⟨w.base ls, asAtName b.now, "frame.ignore".toList⟩] else []))

theorem hex_not {i : Str} (h : HexId i) {c : Char} (hc : c ∉ "0123456789abcdef-".toList) : c ∉ i :=
  fun hi => hc (h c hi)

theorem ext_chars {format : Str} {c : Char} (h : c ∈ extension format) :
    c ∈ ".txt.jsonl.zstd.parquet".toList := by
  unfold extension at h
  split at h
  · revert c; decide
  · split at h
    · rename_i hf
      rcases hf with rfl | rfl <;> (revert c; decide)
    · revert c; decide

theorem ext_head (format : Str) : ∃ e, extension format = '.' :: e := by
  unfold extension
  split
  · exact ⟨_, rfl⟩
  · split
    · exact ⟨_, rfl⟩
    · exact ⟨_, rfl⟩

/-- A name with an underscore-free text has no marker in it. -/
theorem name_plain {i format : Str} (h : HexId i) :
    '/' ∉ i ++ extension format ∧ '_' ∉ i ++ extension format ∧ 'B' ∉ i ++ extension format := by
  refine ⟨?_, ?_, ?_⟩ <;>
  · rw [List.mem_append, not_or]
    refine ⟨hex_not h (by decide), fun hc => absurd (ext_chars hc) (by decide)⟩

theorem contains_of_not_mem {sub s : Str} {c : Char} (h : c ∈ sub) (hs : c ∉ s) : contains sub s = false := by
  rw [contains_false]
  rintro ⟨a, b, e⟩
  apply hs
  rw [e]
  simp [h]

theorem name_no_marker {i format : Str} (h : HexId i) {m : Str} (hm : "fr".toList <+: m) :
    ¬ m <+: i ++ extension format := by
  intro hp
  have hp := hm.trans hp
  obtain ⟨e, he⟩ := ext_head format
  rw [he] at hp
  obtain ⟨t, ht⟩ := hp
  cases i with
  | nil => exact absurd (congrArg List.head? ht) (by simp)
  | cons a i =>
    cases i with
    | nil => exact absurd (congrArg (fun l => l[1]?) ht) (by simp)
    | cons b i =>
      have : b = 'r' := by
        have := congrArg (fun l => l[1]?) ht
        simpa using this.symm
      exact absurd (h b (by simp)) (by rw [this]; decide)

theorem framed_base {w : Job} {ls : List (List Piece)} {b : Batch} {x : Framed} (hx : x ∈ b.framed w ls) :
    x.base = w.base ls ∧ x.frame = asAtName b.now := by
  simp only [Batch.framed, List.mem_append, List.mem_map] at hx
  rcases hx with ⟨i, _, rfl⟩ | hx | hx
  · exact ⟨rfl, rfl⟩
  · split at hx
    · rw [List.mem_singleton.1 hx]; exact ⟨rfl, rfl⟩
    · simp at hx
  · split at hx
    · rw [List.mem_singleton.1 hx]; exact ⟨rfl, rfl⟩
    · simp at hx

theorem framed_name {w : Job} {ls : List (List Piece)} {b : Batch} (hi : ∀ i ∈ b.ids, HexId i)
    {x : Framed} (hx : x ∈ b.framed w ls) :
    '/' ∉ x.name ∧ '_' ∉ x.name ∧ 'B' ∉ x.name := by
  simp only [Batch.framed, List.mem_append, List.mem_map] at hx
  rcases hx with ⟨i, hm, rfl⟩ | hx | hx
  · exact name_plain (hi i hm)
  · split at hx
    · rw [List.mem_singleton.1 hx]
      show '/' ∉ "frame.complete".toList ∧ '_' ∉ "frame.complete".toList ∧ 'B' ∉ "frame.complete".toList
      decide
    · simp at hx
  · split at hx
    · rw [List.mem_singleton.1 hx]
      show '/' ∉ "frame.ignore".toList ∧ '_' ∉ "frame.ignore".toList ∧ 'B' ∉ "frame.ignore".toList
      decide
    · simp at hx

theorem framed_ok {w : Job} {ls : List (List Piece)} (hb : PlainBase (w.base ls)) {b : Batch}
    (hv : b.now.valid = true) (hi : ∀ i ∈ b.ids, HexId i) {x : Framed} (hx : x ∈ b.framed w ls) : x.OK := by
  obtain ⟨e1, e2⟩ := framed_base hx
  obtain ⟨h1, h2, _⟩ := framed_name hi hx
  exact {
    frame_as_at := e2 ▸ asAtName_as_at _
    frame_once := e2 ▸ asAtName_once hv
    frame_flat := e2 ▸ asAtName_flat hv
    base_plain := e1 ▸ hb.as_at
    base_marker := e1 ▸ hb.complete
    name_flat := h1
    name_plain := contains_of_not_mem (c := '_') (by decide) h2 }

theorem asAtName_no_B {t : DateTime} (h : t.valid = true) : 'B' ∉ asAtName t := by
  intro hc
  rcases asAtName_tail h _ hc with hc | hc | ⟨k, hk, hc⟩
  · exact absurd hc (by decide)
  · exact absurd hc (by decide)
  · revert hc; revert k; decide

theorem framed_path_plain {w : Job} {ls : List (List Piece)} (hb : PlainBase (w.base ls)) {b : Batch}
    (hv : b.now.valid = true) (hi : ∀ i ∈ b.ids, HexId i) {x : Framed} (hx : x ∈ b.framed w ls) :
    contains "/by_".toList x.path = false ∧ contains "BACKOUT".toList x.path = false := by
  obtain ⟨e1, e2⟩ := framed_base hx
  obtain ⟨h1, h2, h3⟩ := framed_name hi hx
  constructor
  · rw [contains_false]
    rintro ⟨u, v, e⟩
    have e0 : "/by_".toList = '/' :: "by_".toList := rfl
    rw [e0, Framed.path, List.append_assoc, List.cons_append] at e
    rcases occ_sep (by decide) e with ⟨z, hz⟩ | ⟨_, hz⟩ | ⟨z, _, hz⟩
    · refine contains_false.1 hb.by_ ⟨u, z, ?_⟩
      rw [← e1, hz]; rfl
    · rw [e2, asAtName_eq] at hz
      exact absurd (congrArg List.head? hz) (by simp)
    · rcases occ_sep (by decide) hz with ⟨y, hy⟩ | ⟨_, hy⟩ | ⟨y, _, hy⟩
      · refine asAtName_flat hv ?_
        rw [← e2, hy]; simp
      · exact h2 (by rw [hy]; simp)
      · exact h1 (by rw [hy]; simp)
  · unfold Framed.path
    rw [← Bool.not_eq_true, List.append_assoc, List.cons_append,
      contains_slash (by decide) (by decide), contains_slash (by decide) (by decide), e1, e2, hb.backout,
      contains_of_not_mem (c := 'B') (by decide) (asAtName_no_B hv),
      contains_of_not_mem (c := 'B') (by decide) h3]
    simp

theorem path_inj {a b : Framed} (ha : '/' ∉ a.frame) (hb : '/' ∉ b.frame) (hbase : a.base = b.base)
    (h : a.path = b.path) : a = b := by
  unfold Framed.path at h
  rw [hbase, List.append_assoc, List.append_assoc] at h
  have h := List.append_cancel_left h
  simp only [List.cons_append, List.cons.injEq, true_and] at h
  obtain ⟨h1, h2⟩ := slash_inj ha hb h
  cases a; cases b; simp_all

theorem asAtName_inj {s t : DateTime} (hs : s.valid = true) (ht : t.valid = true)
    (h : asAtName s = asAtName t) : s = t := by
  rw [asAtName_eq, asAtName_eq] at h
  have h := List.append_cancel_left h
  obtain ⟨h1, h2⟩ := List.append_inj h (by simp [stamp1])
  have h1 := congrArg digitsValue (map_digitChar_inj _ _ (stamp1_digits hs) (stamp1_digits ht) h1)
  have h2 := congrArg digitsValue
    (map_digitChar_inj _ _ (stamp2_digits hs) (stamp2_digits ht) (List.cons.inj h2).2)
  rw [stamp1_value s hs, stamp1_value t ht] at h1
  rw [stamp2_value s hs, stamp2_value t ht] at h2
  have hv := (DateTime.valid_iff s).1 hs
  have hw := (DateTime.valid_iff t).1 ht
  have hds := days_lt s.year s.month
  have hdt := days_lt t.year t.month
  have e1 : s.year = t.year := by omega
  have e2 : s.month = t.month := by omega
  have e3 : s.day = t.day := by omega
  have e4 : s.hour = t.hour := by omega
  have e5 : s.minute = t.minute := by omega
  have e6 : s.second = t.second := by omega
  cases s; cases t; simp_all

/-! ## The specification -/

/-- `t` is the time of the latest run that was completed and not ignored. -/
structure Latest (hs : List Batch) (t : DateTime) : Prop where
  complete : ∃ b ∈ hs, b.now = t ∧ b.complete = true
  notIgnored : ¬ ∃ b ∈ hs, b.now = t ∧ b.ignored = true
  latest : ∀ b ∈ hs, b.complete = true → (¬ ∃ b' ∈ hs, b'.now = b.now ∧ b'.ignored = true) →
    b.now.seconds ≤ t.seconds

/-- The disk holds, beneath the folder of the dataset and date, exactly the blobs and markers of the
runs in the history; anything may be elsewhere. -/
structure Holds (w : Job) (hs : List Batch) (files : List Posix) (p : Posix) : Prop where
  normal : ∀ q ∈ files, Posix.parse q.str = q
  beneath_iff : ∀ q, (q ∈ files ∧ beneath p q = true) ↔
    ∃ b ∈ hs, ∃ bl mk, b.blobs w = .ok bl ∧ b.markers w = .ok mk ∧ ∃ x ∈ bl ++ mk, q = Posix.parse x

theorem mapM_map {α β : Type} {f : α → Except Err β} {g : α → β} {l : List α}
    (h : ∀ a ∈ l, f a = .ok (g a)) : l.mapM f = .ok (l.map g) := by
  induction l with
  | nil => rfl
  | cons a l ih =>
    rw [List.mapM_cons, h a (by simp), ih (fun b hb => h b (by simp [hb]))]
    rfl

theorem blobs_eq {w : Job} {ls : List (List Piece)} (h : w.OK ls) (b : Batch) (hv : b.now.valid = true) :
    b.blobs w = .ok (b.ids.map (fun i => Framed.path ⟨w.base ls, asAtName b.now, i ++ extension w.format⟩)) :=
  mapM_map (fun i _ => batchBlob_eq h hv i)

theorem paths_eq {w : Job} {ls : List (List Piece)} (h : w.OK ls) (b : Batch) (hv : b.now.valid = true)
    (q : Posix) :
    (∃ bl mk, b.blobs w = .ok bl ∧ b.markers w = .ok mk ∧ ∃ x ∈ bl ++ mk, q = Posix.parse x) ↔
      ∃ x ∈ b.framed w ls, q = Posix.parse x.path := by
  have hm := completionPath_eq h hv b rfl
  rw [blobs_eq h b hv, hm]
  have key : ∀ y, y ∈ (b.ids.map (fun i => Framed.path ⟨w.base ls, asAtName b.now, i ++ extension w.format⟩)) ++
      ((if b.complete then [Framed.path ⟨w.base ls, asAtName b.now, "frame.complete".toList⟩] else []) ++
        (if b.ignored then [Framed.path ⟨w.base ls, asAtName b.now, "frame.ignore".toList⟩] else [])) ↔
      ∃ x ∈ b.framed w ls, y = x.path := by
    intro y
    have e : (b.ids.map (fun i => Framed.path ⟨w.base ls, asAtName b.now, i ++ extension w.format⟩)) ++
      ((if b.complete then [Framed.path ⟨w.base ls, asAtName b.now, "frame.complete".toList⟩] else []) ++
        (if b.ignored then [Framed.path ⟨w.base ls, asAtName b.now, "frame.ignore".toList⟩] else []))
        = (b.framed w ls).map Framed.path := by
      unfold Batch.framed
      rw [List.map_append, List.map_append, List.map_map]
      congr 1
      congr 1 <;> split <;> rfl
    rw [e, List.mem_map]
    constructor
    · rintro ⟨x, hx, rfl⟩; exact ⟨x, hx, rfl⟩
    · rintro ⟨x, hx, rfl⟩; exact ⟨x, hx, rfl⟩
  constructor
  · rintro ⟨bl, mk, e1, e2, y, hy, rfl⟩
    cases e1; cases e2
    obtain ⟨x, hx, rfl⟩ := (key y).1 hy
    exact ⟨x, hx, rfl⟩
  · rintro ⟨x, hx, rfl⟩
    exact ⟨_, _, rfl, rfl, x.path, (key _).2 ⟨x, hx, rfl⟩, rfl⟩

/-- The file of a blob. -/
theorem framed_parse {w : Job} {ls : List (List Piece)} (h : w.OK ls) {b : Batch}
    (hv : b.now.valid = true) (hi : ∀ i ∈ b.ids, HexId i) {x : Framed} (hx : x ∈ b.framed w ls) :
    Posix.parse x.path = ⟨[], ls.map (filled w.date) ++ [x.frame, x.name]⟩ ∧
      (Posix.parse x.path).str = x.path := by
  obtain ⟨e1, e2⟩ := framed_base hx
  have hc : ∀ c ∈ ls.map (filled w.date), Comp c := by
    intro c hc
    obtain ⟨l, hl, rfl⟩ := List.mem_map.1 hc
    exact folder_filled (h.folders l hl) h.date
  have hne : ls.map (filled w.date) ≠ [] := by simpa using h.ne
  have ha : Comp x.frame := by
    rw [e2]; exact ⟨by rw [asAtName_eq]; simp, by rw [asAtName_eq]; simp, asAtName_flat hv⟩
  have hnm : Comp x.name := by
    have hlen : 2 < x.name.length := by
      simp only [Batch.framed, List.mem_append, List.mem_map] at hx
      rcases hx with ⟨i, hm, rfl⟩ | hx | hx
      · have : 2 < (extension w.format).length := by
          unfold extension
          split
          · decide
          · split
            · rename_i hf; rcases hf with hf | hf <;> rw [hf] <;> decide
            · decide
        show 2 < (i ++ extension w.format).length
        rw [List.length_append]
        omega
      · split at hx
        · rw [List.mem_singleton.1 hx]
          show 2 < "frame.complete".toList.length
          decide
        · simp at hx
      · split at hx
        · rw [List.mem_singleton.1 hx]
          show 2 < "frame.ignore".toList.length
          decide
        · simp at hx
    refine ⟨?_, ?_, (framed_name hi hx).1⟩
    · intro e; rw [e] at hlen; exact absurd hlen (by decide)
    · intro e; rw [e] at hlen; exact absurd hlen (by decide)
  have e3 : x.path = join ['/'] (ls.map (filled w.date) ++ [x.frame, x.name]) := by
    have : ls.map (filled w.date) ++ [x.frame, x.name] = (ls.map (filled w.date) ++ [x.frame]) ++ [x.name] := by
      simp
    rw [this, join_snoc _ _ (by simp), join_snoc _ _ hne, Framed.path, e1, Job.base]
  have e4 : Posix.parse x.path = ⟨[], ls.map (filled w.date) ++ [x.frame, x.name]⟩ := by
    rw [e3]
    apply parse_join (by simp)
    intro c hm
    rcases List.mem_append.1 hm with hm | hm
    · exact hc c hm
    · simp only [List.mem_cons, List.not_mem_nil, or_false] at hm
      rcases hm with rfl | rfl
      · exact ha
      · exact hnm
  refine ⟨e4, ?_⟩
  rw [e4, e3]
  simp [Posix.str]

/-- A list of names each of which is of a framed blob is the names of a list of framed blobs. -/
theorem exists_framed {P : Framed → Prop} (l : List Str) (h : ∀ x ∈ l, ∃ b, P b ∧ b.path = x) :
    ∃ bs : List Framed, bs.map Framed.path = l ∧ ∀ b ∈ bs, P b := by
  induction l with
  | nil => exact ⟨[], rfl, by simp⟩
  | cons x l ih =>
    obtain ⟨b, hb, rfl⟩ := h x (by simp)
    obtain ⟨bs, e, hbs⟩ := ih (fun y hy => h y (by simp [hy]))
    refine ⟨b :: bs, by rw [List.map_cons, e], ?_⟩
    intro c hc
    rcases List.mem_cons.1 hc with rfl | hc
    · exact hb
    · exact hbs c hc

theorem exists_latest {P : Batch → Prop} (hs : List Batch) (h : ∃ b ∈ hs, P b) :
    ∃ b ∈ hs, P b ∧ ∀ b' ∈ hs, P b' → b'.now.seconds ≤ b.now.seconds := by
  classical
  induction hs with
  | nil => obtain ⟨b, hb, _⟩ := h; simp at hb
  | cons a hs ih =>
    by_cases hx : ∃ b ∈ hs, P b
    · obtain ⟨b, hb, hP, hmax⟩ := ih hx
      by_cases ha : P a ∧ b.now.seconds < a.now.seconds
      · refine ⟨a, by simp, ha.1, ?_⟩
        intro b' hb' hP'
        rcases List.mem_cons.1 hb' with rfl | hb'
        · exact Nat.le_refl _
        · exact Nat.le_trans (hmax b' hb' hP') (Nat.le_of_lt ha.2)
      · refine ⟨b, by simp [hb], hP, ?_⟩
        intro b' hb' hP'
        rcases List.mem_cons.1 hb' with rfl | hb'
        · exact Nat.not_lt.1 (fun hlt => ha ⟨hP', hlt⟩)
        · exact hmax b' hb' hP'
    · obtain ⟨b, hb, hP⟩ := h
      rcases List.mem_cons.1 hb with rfl | hb
      · refine ⟨b, by simp, hP, ?_⟩
        intro b' hb' hP'
        rcases List.mem_cons.1 hb' with rfl | hb'
        · exact Nat.le_refl _
        · exact absurd ⟨b', hb', hP'⟩ hx
      · exact absurd ⟨b, hb, hP⟩ hx

/-- What a run's blobs are: not the markers. -/
theorem framed_blob_iff {w : Job} {ls : List (List Piece)} {b : Batch} (hi : ∀ i ∈ b.ids, HexId i)
    {x : Framed} (hx : x ∈ b.framed w ls) :
    ("frame.complete".toList <+: x.name → b.complete = true) ∧
    ("frame.ignore".toList <+: x.name → b.ignored = true) := by
  simp only [Batch.framed, List.mem_append, List.mem_map] at hx
  rcases hx with ⟨i, hm, rfl⟩ | hx | hx
  · exact ⟨fun h => absurd h (name_no_marker (hi i hm) (by decide)),
      fun h => absurd h (name_no_marker (hi i hm) (by decide))⟩
  · split at hx
    · rename_i hc
      rw [List.mem_singleton.1 hx]
      refine ⟨fun _ => hc, fun h => absurd h ?_⟩
      show ¬ "frame.ignore".toList <+: "frame.complete".toList
      decide
    · simp at hx
  · split at hx
    · rename_i hc
      rw [List.mem_singleton.1 hx]
      refine ⟨fun h => absurd h ?_, fun _ => hc⟩
      show ¬ "frame.complete".toList <+: "frame.ignore".toList
      decide
    · simp at hx

theorem mem_framed_complete {w : Job} {ls : List (List Piece)} {b : Batch} (hc : b.complete = true) :
    (⟨w.base ls, asAtName b.now, "frame.complete".toList⟩ : Framed) ∈ b.framed w ls := by
  unfold Batch.framed
  rw [if_pos hc]
  exact List.mem_append_right _ (List.mem_append_left _ (List.mem_singleton.2 rfl))

theorem mem_framed_ignore {w : Job} {ls : List (List Piece)} {b : Batch} (hc : b.ignored = true) :
    (⟨w.base ls, asAtName b.now, "frame.ignore".toList⟩ : Framed) ∈ b.framed w ls := by
  unfold Batch.framed
  rw [if_pos hc]
  exact List.mem_append_right _ (List.mem_append_right _ (List.mem_singleton.2 rfl))

/-- The blobs listed for one folder. -/
theorem cycle_history {w : Job} {ls : List (List Piece)} (h : w.OK ls) (hb : PlainBase (w.base ls))
    {hs : List Batch} (hv : ∀ b ∈ hs, b.now.valid = true) (hi : ∀ b ∈ hs, ∀ i ∈ b.ids, HexId i)
    {files : List Posix} (hd : Holds w hs files ⟨[], ls.map (filled w.date)⟩) :
    ∃ l, cycleBlobs none (diskBlobsAt files ⟨[], ls.map (filled w.date)⟩) = .ok l ∧
      ∀ x, x ∈ l ↔ ∃ t, Latest hs t ∧ ∃ b ∈ hs, b.now = t ∧ ∃ i ∈ b.ids,
        batchBlob w.dataset w.partitions (asAtName b.now) w.date w.rnd w.format i = .ok x := by
  -- the files are the blobs of frames
  have hmem : ∀ x, x ∈ diskBlobsAt files ⟨[], ls.map (filled w.date)⟩ ↔
      ∃ b ∈ hs, ∃ y ∈ b.framed w ls, x = y.path := by
    intro x
    unfold diskBlobsAt
    rw [List.mem_map]
    constructor
    · rintro ⟨q, hq, rfl⟩
      obtain ⟨b, hbm, hrest⟩ := (hd.beneath_iff q).1 (List.mem_filter.1 hq)
      obtain ⟨y, hy, rfl⟩ := (paths_eq h b (hv b hbm) q).1 hrest
      exact ⟨b, hbm, y, hy, (framed_parse h (hv b hbm) (hi b hbm) hy).2⟩
    · rintro ⟨b, hbm, y, hy, rfl⟩
      refine ⟨Posix.parse y.path, ?_, (framed_parse h (hv b hbm) (hi b hbm) hy).2⟩
      apply List.mem_filter.2
      exact (hd.beneath_iff _).2 ⟨b, hbm, (paths_eq h b (hv b hbm) _).2 ⟨y, hy, rfl⟩⟩
  obtain ⟨bs, hbs, hbsP⟩ := exists_framed (P := fun y => ∃ b ∈ hs, y ∈ b.framed w ls)
    (diskBlobsAt files ⟨[], ls.map (filled w.date)⟩) (by
      intro x hx
      obtain ⟨b, hbm, y, hy, rfl⟩ := (hmem x).1 hx
      exact ⟨y, ⟨b, hbm, hy⟩, rfl⟩)
  have hok : ∀ y ∈ bs, y.OK := by
    intro y hy
    obtain ⟨b, hbm, hyb⟩ := hbsP y hy
    exact framed_ok hb (hv b hbm) (hi b hbm) hyb
  have hset : ∀ y, y ∈ bs ↔ ∃ b ∈ hs, y ∈ b.framed w ls := by
    intro y
    refine ⟨hbsP y, ?_⟩
    rintro ⟨b, hbm, hyb⟩
    have : y.path ∈ bs.map Framed.path := by
      rw [hbs]; exact (hmem _).2 ⟨b, hbm, y, hyb, rfl⟩
    obtain ⟨z, hz, e⟩ := List.mem_map.1 this
    obtain ⟨b', hbm', hzb⟩ := hbsP z hz
    have : z = y := path_inj (hok z hz).frame_flat (framed_ok hb (hv b hbm) (hi b hbm) hyb).frame_flat
      ((framed_base hzb).1.trans (framed_base hyb).1.symm) e
    exact this ▸ hz
  have hby : ∀ y ∈ bs, contains "/by_".toList y.path = false := by
    intro y hy
    obtain ⟨b, hbm, hyb⟩ := hbsP y hy
    exact (framed_path_plain hb (hv b hbm) (hi b hbm) hyb).1
  have hbo : ∀ y ∈ bs, contains "BACKOUT".toList y.path = false := by
    intro y hy
    obtain ⟨b, hbm, hyb⟩ := hbsP y hy
    exact (framed_path_plain hb (hv b hbm) (hi b hbm) hyb).2
  have hcomp : ∀ f, Complete bs f ↔ ∃ b ∈ hs, asAtName b.now = f ∧ b.complete = true := by
    intro f
    constructor
    · rintro ⟨y, hy, hyf, hm⟩
      obtain ⟨b, hbm, hyb⟩ := hbsP y hy
      exact ⟨b, hbm, (framed_base hyb).2 ▸ hyf, (framed_blob_iff (hi b hbm) hyb).1 hm⟩
    · rintro ⟨b, hbm, rfl, hc⟩
      refine ⟨⟨w.base ls, asAtName b.now, "frame.complete".toList⟩, (hset _).2 ⟨b, hbm, ?_⟩, rfl,
        List.prefix_rfl⟩
      exact mem_framed_complete hc
  have hign : ∀ f, Ignored bs f ↔ ∃ b ∈ hs, asAtName b.now = f ∧ b.ignored = true := by
    intro f
    constructor
    · rintro ⟨y, hy, hyf, hm⟩
      obtain ⟨b, hbm, hyb⟩ := hbsP y hy
      exact ⟨b, hbm, (framed_base hyb).2 ▸ hyf, (framed_blob_iff (hi b hbm) hyb).2 hm⟩
    · rintro ⟨b, hbm, rfl, hc⟩
      refine ⟨⟨w.base ls, asAtName b.now, "frame.ignore".toList⟩, (hset _).2 ⟨b, hbm, ?_⟩, rfl,
        List.prefix_rfl⟩
      exact mem_framed_ignore hc
  have hu : Unambiguous bs := by
    intro y hy z hz hp
    obtain ⟨b, hbm, hyb⟩ := hbsP y hy
    obtain ⟨b', hbm', hzb⟩ := hbsP z hz
    rw [(framed_base hyb).2, (framed_base hzb).2] at hp ⊢
    exact asAtName_prefix hp
  have hname : ∀ b ∈ hs, ∀ b' ∈ hs, asAtName b.now = asAtName b'.now → b.now = b'.now :=
    fun b hb' b' hb'' e => asAtName_inj (hv b hb') (hv b' hb'') e
  by_cases hex : ∃ b ∈ hs, b.complete = true ∧ ¬ ∃ b' ∈ hs, b'.now = b.now ∧ b'.ignored = true
  · obtain ⟨a, ha, ⟨hac, hai⟩, hmax⟩ := exists_latest hs hex
    have hlat : Latest hs a.now := ⟨⟨a, ha, rfl, hac⟩, hai, fun b hb' hc hn => hmax b hb' ⟨hc, hn⟩⟩
    have hnew : Newest bs (asAtName a.now) := by
      refine ⟨(hcomp _).2 ⟨a, ha, rfl, hac⟩, ?_, ?_⟩
      · rw [hign]
        rintro ⟨b', hb', e, hig⟩
        exact hai ⟨b', hb', hname _ hb' _ ha e, hig⟩
      · intro g hg hgi
        obtain ⟨b', hb', rfl, hc⟩ := (hcomp g).1 hg
        apply asAtName_le (hv _ hb') (hv _ ha)
        apply hmax b' hb'
        refine ⟨hc, ?_⟩
        rintro ⟨b'', hb'', e, hig⟩
        exact hgi ((hign _).2 ⟨b'', hb'', by rw [e], hig⟩)
    refine ⟨_, hbs ▸ C19_newest_frame bs hok hby hbo hu _ hnew, ?_⟩
    intro x
    rw [List.mem_map]
    constructor
    · rintro ⟨y, hy, rfl⟩
      obtain ⟨hy, hp⟩ := List.mem_filter.1 hy
      have ⟨hyf, hnm⟩ := of_decide_eq_true hp
      obtain ⟨b, hbm, hyb⟩ := hbsP y hy
      have hnow : b.now = a.now := hname _ hbm _ ha ((framed_base hyb).2 ▸ hyf)
      refine ⟨a.now, hlat, b, hbm, hnow, ?_⟩
      have hyb' := hyb
      simp only [Batch.framed, List.mem_append, List.mem_map] at hyb
      rcases hyb with ⟨i, him, rfl⟩ | hyb | hyb
      · exact ⟨i, him, batchBlob_eq h (hv b hbm) i⟩
      · split at hyb
        · rw [List.mem_singleton.1 hyb] at hnm
          exact absurd List.prefix_rfl hnm
        · simp at hyb
      · split at hyb
        · rename_i hig
          exact absurd ⟨b, hbm, hnow, hig⟩ hai
        · simp at hyb
    · rintro ⟨t, ht, b, hbm, hbt, i, him, hx⟩
      rw [batchBlob_eq h (hv b hbm) i] at hx
      cases hx
      -- the latest time is unique
      obtain ⟨c, hc, hct, hcc⟩ := ht.complete
      have e1 : c.now.seconds ≤ a.now.seconds := by
        apply hmax c hc
        exact ⟨hcc, by rw [hct]; exact ht.notIgnored⟩
      have e2 : a.now.seconds ≤ c.now.seconds := by
        rw [hct]; exact ht.latest a ha hac hai
      have e3 : asAtName c.now = asAtName a.now := by
        have n1 : ¬ asAtName c.now < asAtName a.now := by
          rw [asAtName_lt (hv _ hc) (hv _ ha)]; omega
        have n2 : ¬ asAtName a.now < asAtName c.now := by
          rw [asAtName_lt (hv _ ha) (hv _ hc)]; omega
        exact List.le_antisymm n2 n1
      refine ⟨⟨w.base ls, asAtName b.now, i ++ extension w.format⟩, ?_, rfl⟩
      apply List.mem_filter.2
      refine ⟨(hset _).2 ⟨b, hbm, ?_⟩, ?_⟩
      · unfold Batch.framed
        exact List.mem_append_left _ (List.mem_map.2 ⟨i, him, rfl⟩)
      · apply decide_eq_true
        refine ⟨?_, name_no_marker (hi b hbm i him) (by decide)⟩
        show asAtName b.now = asAtName a.now
        rw [hbt, ← hct, e3]
  · refine ⟨[], hbs ▸ C19_no_valid_frame bs hok hby hbo ?_, ?_⟩
    · intro f hf
      obtain ⟨b, hbm, rfl, hc⟩ := (hcomp f).1 hf
      rw [hign]
      by_cases hbi : ∃ b' ∈ hs, b'.now = b.now ∧ b'.ignored = true
      · obtain ⟨b', hb', e, hig⟩ := hbi
        exact ⟨b', hb', by rw [e], hig⟩
      · exact absurd ⟨b, hbm, hc, hbi⟩ hex
    · intro x
      simp only [List.not_mem_nil, false_iff]
      rintro ⟨t, ht, _⟩
      obtain ⟨c, hc, hct, hcc⟩ := ht.complete
      exact hex ⟨c, hc, hcc, by rw [hct]; exact ht.notIgnored⟩

/-- Without a partition filter the listing cannot fail. -/
theorem cycleBlobs_none_ok (stored : List Str) : ∃ l, cycleBlobs none stored = .ok l := by
  unfold cycleBlobs applyFilter
  simp only
  split <;> exact ⟨_, rfl⟩

theorem listBlobs_none_ok (dataset rnd : Str) (blobsAt : Posix → List Str) (dates : List DateTime) :
    ∃ l, listBlobs dataset rnd none blobsAt dates = .ok l ∧
      ∀ x, x ∈ l ↔ ∃ d ∈ dates, ∃ c, cycleBlobs none (blobsAt (cyclePath dataset rnd d)) = .ok c ∧ x ∈ c := by
  have hm : ∀ ps : List Posix, ∃ ls, ps.mapM (fun p => cycleBlobs none (blobsAt p)) = .ok ls ∧
      ∀ x, x ∈ ls.flatten ↔ ∃ p ∈ ps, ∃ c, cycleBlobs none (blobsAt p) = .ok c ∧ x ∈ c := by
    intro ps
    induction ps with
    | nil => exact ⟨[], rfl, by simp⟩
    | cons p ps ih =>
      obtain ⟨ls, e, hx⟩ := ih
      obtain ⟨c, hc⟩ := cycleBlobs_none_ok (blobsAt p)
      refine ⟨c :: ls, by rw [List.mapM_cons, hc, e]; rfl, ?_⟩
      intro x
      simp only [List.flatten_cons, List.mem_append, hx, List.mem_cons, exists_eq_or_imp]
      constructor
      · rintro (h | h)
        · exact Or.inl ⟨c, hc, h⟩
        · exact Or.inr h
      · rintro (⟨c', hc', h⟩ | h)
        · rw [hc] at hc'; cases hc'; exact Or.inl h
        · exact Or.inr h
  obtain ⟨ls, e, hx⟩ := hm (visited dataset rnd dates)
  refine ⟨sorted strLe ls.flatten, by unfold listBlobs; rw [e], ?_⟩
  intro x
  rw [mem_sorted, hx]
  unfold visited
  constructor
  · rintro ⟨p, hp, h⟩
    obtain ⟨d, hd, rfl⟩ := List.mem_map.1 (dedup_mem.1 hp)
    exact ⟨d, hd, h⟩
  · rintro ⟨d, hd, h⟩
    exact ⟨_, dedup_mem.2 (List.mem_map.2 ⟨d, hd, rfl⟩), h⟩

theorem job_date {w : Job} {ls : List (List Piece)} (h : w.OK ls) {d : DateTime} (hd : d.valid = true) :
    Job.OK { w with date := d } ls := ⟨h.folders, h.ne, h.path, h.dataset, hd⟩

/-- **C22.**  Whatever runs of batch writers there were for a dataset and date (finished or not,
ignored or not), a reader of the dataset whose dates include that date lists, of the blobs beneath the
folder of the date, exactly the blobs of the latest run that was completed and not ignored. -/
theorem C22_completed_is_read (w : Job) (ls : List (List Piece)) (h : w.OK ls)
    (hb : PlainBase (w.base ls)) (hs : List Batch) (hv : ∀ b ∈ hs, b.now.valid = true)
    (hi : ∀ b ∈ hs, ∀ i ∈ b.ids, HexId i) (files : List Posix) (rnd : Str)
    (hd : Holds w hs files (cyclePath (readerDataset w.dataset w.partitions) rnd w.date))
    (dates : List DateTime) (hdv : ∀ d ∈ dates, d.valid = true) (hmem : w.date ∈ dates) :
    ∃ l, listBlobs (readerDataset w.dataset w.partitions) rnd none (diskBlobsAt files) dates = .ok l ∧
      ∀ x, beneath (cyclePath (readerDataset w.dataset w.partitions) rnd w.date) (Posix.parse x) = true →
        (x ∈ l ↔ ∃ t, Latest hs t ∧ ∃ b ∈ hs, b.now = t ∧ ∃ i ∈ b.ids,
          batchBlob w.dataset w.partitions (asAtName b.now) w.date w.rnd w.format i = .ok x) := by
  have hp := cyclePath_eq h rnd
  rw [hp] at hd ⊢
  obtain ⟨c, hc, hcx⟩ := cycle_history h hb hv hi hd
  obtain ⟨l, hl, hlx⟩ := listBlobs_none_ok (readerDataset w.dataset w.partitions) rnd (diskBlobsAt files) dates
  refine ⟨l, hl, ?_⟩
  intro x hx
  rw [hlx, ← hcx]
  constructor
  · rintro ⟨d, hdm, c', hc', hxc⟩
    have hp' := cyclePath_eq (job_date h (hdv d hdm)) rnd
    simp only at hp'
    -- the blob lies beneath both folders, which are equally deep
    have hst := (mem_cycleBlobs hc' hxc).1
    rw [hp'] at hst hc'
    unfold diskBlobsAt at hst
    obtain ⟨q, hq, rfl⟩ := List.mem_map.1 hst
    obtain ⟨hqf, hqb⟩ := List.mem_filter.1 hq
    rw [hd.normal q hqf] at hx
    simp only [beneath, Bool.and_eq_true, decide_eq_true_eq, List.isPrefixOf_iff_prefix] at hx hqb
    have : ls.map (filled w.date) = ls.map (filled d) := by
      have h1 := List.prefix_of_prefix_length_le hx.1.2 hqb.1.2 (by simp)
      exact h1.eq_of_length (by simp)
    rw [← this, hc] at hc'
    cases hc'
    exact hxc
  · intro hxc
    exact ⟨w.date, hmem, c, hp ▸ hc, hxc⟩

/-- Such a disk exists for every history: the disk the runs leave behind. -/
theorem holds_exists (w : Job) (ls : List (List Piece)) (h : w.OK ls) (hs : List Batch)
    (hv : ∀ b ∈ hs, b.now.valid = true) (hi : ∀ b ∈ hs, ∀ i ∈ b.ids, HexId i) (rnd : Str) :
    ∃ files, Holds w hs files (cyclePath (readerDataset w.dataset w.partitions) rnd w.date) := by
  rw [cyclePath_eq h rnd]
  refine ⟨hs.flatMap (fun b => (b.framed w ls).map (fun x => Posix.parse x.path)), ?_, ?_⟩
  · intro q hq
    obtain ⟨b, hb, hq⟩ := List.mem_flatMap.1 hq
    obtain ⟨x, hx, rfl⟩ := List.mem_map.1 hq
    rw [(framed_parse h (hv b hb) (hi b hb) hx).2]
  · intro q
    constructor
    · rintro ⟨hq, _⟩
      obtain ⟨b, hb, hq⟩ := List.mem_flatMap.1 hq
      obtain ⟨x, hx, rfl⟩ := List.mem_map.1 hq
      exact ⟨b, hb, (paths_eq h b (hv b hb) _).2 ⟨x, hx, rfl⟩⟩
    · rintro ⟨b, hb, hq⟩
      obtain ⟨x, hx, rfl⟩ := (paths_eq h b (hv b hb) _).1 hq
      refine ⟨List.mem_flatMap.2 ⟨b, hb, List.mem_map.2 ⟨x, hx, rfl⟩⟩, ?_⟩
      rw [(framed_parse h (hv b hb) (hi b hb) hx).1]
      simp [beneath]

/-- **C22 (nothing of an unfinished run).**  If the runs started in different seconds, no blob of a run
that was not completed is listed. -/
theorem C22_incomplete_not_read (w : Job) (ls : List (List Piece)) (h : w.OK ls)
    (hb : PlainBase (w.base ls)) (hs : List Batch) (hv : ∀ b ∈ hs, b.now.valid = true)
    (hi : ∀ b ∈ hs, ∀ i ∈ b.ids, HexId i)
    (hdiff : ∀ b ∈ hs, ∀ b' ∈ hs, b.now = b'.now → b = b') (files : List Posix) (rnd : Str)
    (hd : Holds w hs files (cyclePath (readerDataset w.dataset w.partitions) rnd w.date))
    (dates : List DateTime) (hdv : ∀ d ∈ dates, d.valid = true) (hmem : w.date ∈ dates)
    (b : Batch) (hbm : b ∈ hs) (hbc : b.complete = false) (i : Str) (him : i ∈ b.ids) (x : Str)
    (hx : batchBlob w.dataset w.partitions (asAtName b.now) w.date w.rnd w.format i = .ok x)
    (l : List Str)
    (hl : listBlobs (readerDataset w.dataset w.partitions) rnd none (diskBlobsAt files) dates = .ok l) :
    x ∉ l := by
  obtain ⟨l', hl', hiff⟩ := C22_completed_is_read w ls h hb hs hv hi files rnd hd dates hdv hmem
  rw [hl] at hl'
  cases hl'
  rw [batchBlob_eq h (hv b hbm) i] at hx
  cases hx
  have hfr : (⟨w.base ls, asAtName b.now, i ++ extension w.format⟩ : Framed) ∈ b.framed w ls :=
    List.mem_append_left _ (List.mem_map.2 ⟨i, him, rfl⟩)
  have hbn : beneath (cyclePath (readerDataset w.dataset w.partitions) rnd w.date)
      (Posix.parse (Framed.path ⟨w.base ls, asAtName b.now, i ++ extension w.format⟩)) = true := by
    rw [cyclePath_eq h rnd, (framed_parse h (hv b hbm) (hi b hbm) hfr).1]
    simp [beneath]
  rw [hiff _ hbn]
  rintro ⟨t, ht, b', hb', hbt, i', him', hx'⟩
  rw [batchBlob_eq h (hv b' hb') i'] at hx'
  have hx' : Framed.path ⟨w.base ls, asAtName b'.now, i' ++ extension w.format⟩
      = Framed.path ⟨w.base ls, asAtName b.now, i ++ extension w.format⟩ := Except.ok.inj hx'
  have e := path_inj (a := ⟨w.base ls, asAtName b'.now, i' ++ extension w.format⟩)
    (b := ⟨w.base ls, asAtName b.now, i ++ extension w.format⟩) (asAtName_flat (hv b' hb'))
    (asAtName_flat (hv b hbm)) rfl hx'
  have e2 : asAtName b'.now = asAtName b.now := congrArg Framed.frame e
  have e3 := asAtName_inj (hv b' hb') (hv b hbm) e2
  obtain ⟨c, hc, hct, hcc⟩ := ht.complete
  have e4 : c = b := hdiff c hc b hbm (by rw [hct, ← hbt, e3])
  rw [e4, hbc] at hcc
  cases hcc

/-- The blobs of a batch writer are of a kind the reader can read, whatever the format. -/
theorem C22_blobs_readable (base now i format : Str) :
    isReadable (Framed.path ⟨base, now, i ++ extension format⟩) = true := by
  have key : ∀ (s e : Str), '.' ∉ e → (split '.' (s ++ '.' :: e)).getLast? = some e := by
    intro s e he
    rw [split_slash, split_of_not_mem he, List.getLast?_append]
    rfl
  have main : ∀ (s e : Str), '.' ∉ e → dataExtensions.contains ('.' :: e) = true →
      isReadable (s ++ '.' :: e) = true := by
    intro s e he hc
    unfold isReadable
    rw [key s e he]
    exact hc
  unfold Framed.path extension
  split
  · have := main (base ++ '/' :: now ++ '/' :: i) "txt".toList (by decide) (by decide)
    simpa using this
  · split
    · rename_i hf
      rcases hf with rfl | rfl
      · have := main (base ++ '/' :: now ++ '/' :: i ++ ".jsonl".toList) "zstd".toList (by decide) (by decide)
        simpa using this
      · have := main (base ++ '/' :: now ++ '/' :: i ++ ".jsonl".toList) "parquet".toList (by decide) (by decide)
        simpa using this
    · have := main (base ++ '/' :: now ++ '/' :: i) "jsonl".toList (by decide) (by decide)
      simpa using this

/-! ### A concrete history -/

/-- The default partitioning of a dataset. -/
def demoJob : Job where
  dataset := "tests/data".toList
  partitions := ["year_{yyyy}/month_{mm}/day_{dd}".toList]
  date := ⟨2024, 2, 29, 0, 0, 0⟩
  format := "parquet".toList
  rnd := []

def demoFolders : List (List Piece) :=
  [[.lit "tests".toList], [.lit "data".toList], [.lit "year_".toList, .field .yyyy],
    [.lit "month_".toList, .field .mm], [.lit "day_".toList, .field .dd]]

theorem demo_ok : demoJob.OK demoFolders where
  folders := by
    intro l hl
    simp only [demoFolders, List.mem_cons, List.not_mem_nil, or_false] at hl
    rcases hl with rfl | rfl | rfl | rfl | rfl <;>
      (refine ⟨?_, ?_, by decide, by decide⟩ <;>
        (intro s hs
         simp only [List.mem_cons, List.not_mem_nil, or_false, Piece.lit.injEq, reduceCtorEq] at hs
         subst hs
         decide))
  ne := by decide
  path := by decide
  dataset := by decide
  date := by decide

theorem demo_base : PlainBase (demoJob.base demoFolders) := ⟨by decide, by decide, by decide, by decide⟩

/-- An ignored newest run, an unfinished run, a completed run and an older one. -/
def demoHistory : List Batch :=
  [⟨⟨2024, 3, 1, 10, 0, 0⟩, ["aa-1-1".toList], true, false⟩,
   ⟨⟨2024, 3, 1, 11, 30, 0⟩, ["ab-1-1".toList, "ac-1-1".toList], true, false⟩,
   ⟨⟨2024, 3, 1, 12, 0, 0⟩, ["ad-1-1".toList], false, false⟩,
   ⟨⟨2024, 3, 2, 0, 0, 0⟩, ["ae-1-1".toList], true, true⟩]

example : (∀ b ∈ demoHistory, b.now.valid = true) ∧ (∀ b ∈ demoHistory, ∀ i ∈ b.ids, HexId i) ∧
    Latest demoHistory ⟨2024, 3, 1, 11, 30, 0⟩ := by
  refine ⟨by decide, ?_, ⟨?_, ?_, ?_⟩⟩
  · unfold HexId; decide
  · exact ⟨⟨⟨2024, 3, 1, 11, 30, 0⟩, ["ab-1-1".toList, "ac-1-1".toList], true, false⟩, by simp [demoHistory],
      rfl, rfl⟩
  · rintro ⟨b, hb, h1, h2⟩
    simp only [demoHistory, List.mem_cons, List.not_mem_nil, or_false] at hb
    rcases hb with rfl | rfl | rfl | rfl
    · cases h2
    · cases h2
    · cases h2
    · exact absurd h1 (by decide)
  · intro b hb hc hn
    simp only [demoHistory, List.mem_cons, List.not_mem_nil, or_false] at hb
    rcases hb with rfl | rfl | rfl | rfl
    · decide
    · decide
    · cases hc
    · exact absurd ⟨_, by simp [demoHistory], rfl, rfl⟩ hn

set_option maxRecDepth 4000 in
/-- The name of a blob of that history. -/
example : batchBlob demoJob.dataset demoJob.partitions (asAtName ⟨2024, 3, 1, 11, 30, 0⟩) demoJob.date
    demoJob.rnd demoJob.format "ab-1-1".toList
    = .ok "tests/data/year_2024/month_02/day_29/as_at_20240301-113000/ab-1-1.jsonl.parquet".toList := by
  decide

/-- **Two runs that start within the same second share a frame**: when one of them is completed, the
blobs of the other, which was not, are read too. -/
theorem C22_same_second_fails :
    let hs : List Batch := [⟨⟨2024, 3, 1, 10, 0, 0⟩, ["aa".toList], true, false⟩,
      ⟨⟨2024, 3, 1, 10, 0, 0⟩, ["bb".toList], false, false⟩]
    let files := hs.flatMap (fun b => (b.framed demoJob demoFolders).map (fun x => Posix.parse x.path))
    cycleBlobs none (diskBlobsAt files (cyclePath (readerDataset demoJob.dataset demoJob.partitions) []
        demoJob.date))
      = .ok ["tests/data/year_2024/month_02/day_29/as_at_20240301-100000/aa.jsonl.parquet".toList,
          "tests/data/year_2024/month_02/day_29/as_at_20240301-100000/bb.jsonl.parquet".toList] := by
  decide +kernel

/-! ## C11: what is diverted is not read -/

theorem join_mem_last (l : List Str) (x : Str) : ∃ a, join ['/'] (l ++ [x]) = a ++ x := by
  cases l with
  | nil => exact ⟨[], by simp [join]⟩
  | cons c l => exact ⟨join ['/'] (c :: l) ++ ['/'], by rw [join_snoc _ _ (by simp)]; simp⟩

/-- A blob stored for a target in a BACKOUT folder has BACKOUT in its name. -/
theorem backout_blob (folder format i n : Str)
    (h : blobName (folder ++ "/BACKOUT/".toList) format i = .ok n) :
    ∃ x y, n = x ++ "BACKOUT".toList ++ y := by
  have hcomps : (split '/' (folder ++ "/BACKOUT/".toList)).filter (fun c => c != [] && c != ['.'])
      = (split '/' folder).filter (fun c => c != [] && c != ['.']) ++ ["BACKOUT".toList] := by
    have e : folder ++ "/BACKOUT/".toList = folder ++ '/' :: "BACKOUT/".toList := rfl
    rw [e, split_slash, List.filter_append]
    rfl
  obtain ⟨root, hparse⟩ : ∃ root, Posix.parse (folder ++ "/BACKOUT/".toList)
      = ⟨root, (split '/' folder).filter (fun c => c != [] && c != ['.']) ++ ["BACKOUT".toList]⟩ := by
    unfold Posix.parse
    rw [hcomps]
    split <;> exact ⟨_, rfl⟩
  generalize (split '/' folder).filter (fun c => c != [] && c != ['.']) = comps at hparse
  have hname : (Posix.mk root (comps ++ ["BACKOUT".toList])).name = "BACKOUT".toList := by
    unfold Posix.name
    rw [List.getLast?_append]
    rfl
  have hsuf : suffixOf "BACKOUT".toList = [] := by decide
  have hstem : stemOf "BACKOUT".toList = "BACKOUT".toList := by decide
  -- the bucket and folder together hold the word
  have key : ∃ bucket path, getParts (folder ++ "/BACKOUT/".toList) = .ok (bucket, path, none, none) ∧
      ((bucket = "BACKOUT".toList) ∨ ∃ a b, path = a ++ "BACKOUT".toList ++ b) := by
    have hne : folder ++ "/BACKOUT/".toList ≠ [] := by simp
    unfold getParts
    rw [if_neg hne, hparse]
    simp only [hname, hsuf, hstem, if_true]
    split
    · rename_i hp
      unfold Posix.parts at hp
      split at hp <;> simp at hp
    · rename_i bucket hp
      refine ⟨_, _, rfl, Or.inl ?_⟩
      unfold Posix.parts at hp
      simp only at hp
      split at hp
      · have := congrArg List.getLast? hp
        rw [List.getLast?_append] at this
        simpa using this.symm
      · have := congrArg List.length hp
        simp at this
    · refine ⟨_, _, rfl, Or.inr ?_⟩
      unfold Posix.str
      simp only
      rw [if_neg (by simp)]
      obtain ⟨a, ha⟩ := join_mem_last (Posix.parse (join ['/'] (Posix.mk root (comps ++ ["BACKOUT".toList])).parts.tail.dropLast)).comps "BACKOUT".toList
      rw [ha]
      exact ⟨(Posix.parse (join ['/'] (Posix.mk root (comps ++ ["BACKOUT".toList])).parts.tail.dropLast)).root ++ a,
        ['/'], by simp only [List.append_assoc]⟩
  obtain ⟨bucket, path, hg, hw⟩ := key
  unfold blobName at h
  rw [hg] at h
  simp only [Except.ok.injEq] at h
  subst h
  have hd : ∀ x ∈ "{stem}".toList, x ∉ "BACKOUT".toList := by decide
  have fin : ∀ text a b, text = a ++ "BACKOUT".toList ++ b →
      ∃ x y, replace "{stem}".toList i text = x ++ "BACKOUT".toList ++ y := by
    rintro text a b rfl
    exact ⟨_, _, replace_append_disjoint (by decide) a _ b (by decide) hd⟩
  rcases hw with rfl | ⟨a, b, rfl⟩
  · rw [if_neg (show "BACKOUT".toList ≠ ['/'] by decide)]
    exact fin _ [] _ (by simp only [List.nil_append, List.append_assoc]; rfl)
  · have hne : a ++ "BACKOUT".toList ++ b ≠ ['/'] := by
      intro e
      have := congrArg List.length e
      simp at this
      omega
    rw [if_neg hne]
    exact fin _ ((if bucket = ['/'] then [] else bucket) ++ ['/'] ++ a) (b ++ "{stem}".toList ++ extension format)
      (by simp only [List.append_assoc])

/-- **C11 (end to end).**  Whatever the template, the record and the partition values: no reader, of
any dataset, dates and partition filter, ever lists a blob stored for a target of an invalid record,
though storage may hold it anywhere. -/
theorem C11_invalid_never_read {β : Type} (str : β → Str) (template : Str) (d : DateTime) (names : List Str)
    (combos : List (List β)) (t : Str)
    (ht : t ∈ Targets.targets str (Targets.identity template d false) names combos)
    (format i n : Str) (hn : blobName t format i = .ok n)
    (dataset rnd : Str) (pf : Option PartitionFilter) (blobsAt : Posix → List Str) (dates : List DateTime)
    (l : List Str) (hl : listBlobs dataset rnd pf blobsAt dates = .ok l) : n ∉ l := by
  obtain ⟨folder, rfl⟩ := Targets.C11_invalid_to_backout str template d names combos t ht
  intro hm
  exact C11_reader_never_lists_backout dataset rnd pf blobsAt dates l hl n hm
    (backout_blob folder format i n hn)

set_option maxRecDepth 4000 in
example : blobName "tests/data/year_2024/BACKOUT/".toList "jsonl".toList "ab-1".toList
    = .ok "tests/data/year_2024/BACKOUT/ab-1.jsonl".toList := by decide

end Mabel.Naming
