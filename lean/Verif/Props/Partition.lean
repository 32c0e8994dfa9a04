import Verif.Props.Listing

/-!
# Properties of the partition filter: C69
-/

namespace Mabel.Listing
open Mabel.Py Mabel.Spec

/-- A text of letters, digits and white space only. -/
def Safe (s : Str) : Prop := ∀ c ∈ s, c ∈ Text.validCharacters

theorem sanitize_safe {s : Str} (h : Safe s) : Text.sanitize s = s := by
  unfold Text.sanitize
  rw [List.filter_eq_self]
  intro c hc
  simpa using h c hc

theorem safe_no_slash {s : Str} (h : Safe s) : '/' ∉ s := fun hc => absurd (h _ hc) (by decide)

/-- The segment a filter names. -/
def wanted (f : PartitionFilter) (b : Seg) : Prop :=
  b.by_ = "by_".toList ++ f.field ∧ b.segment = f.field ++ '=' :: f.value

instance (f : PartitionFilter) (b : Seg) : Decidable (wanted f b) := by unfold wanted; infer_instance

theorem contains_wanted {b : Seg} (h : b.OK) (f : PartitionFilter) (hf : Safe f.field) (hv : Safe f.value) :
    contains (['/'] ++ ("by_".toList ++ f.field) ++ ['/'] ++ f.field ++ ['='] ++ f.value ++ ['/']) b.path = true
      ↔ wanted f b := by
  have n1 : '/' ∉ "by_".toList ++ f.field := by
    rw [List.mem_append, not_or]; exact ⟨by decide, safe_no_slash hf⟩
  have n2 : '/' ∉ f.field ++ '=' :: f.value := by
    rw [List.mem_append, List.mem_cons, not_or, not_or]
    exact ⟨safe_no_slash hf, by decide, safe_no_slash hv⟩
  rw [contains_iff]
  constructor
  · rintro ⟨x, y, e⟩
    obtain ⟨_, e2⟩ := by_cancel h (c := "by_".toList ++ f.field ++ ['/'] ++ f.field ++ ['='] ++ f.value ++ ['/'])
      (x := x ++ ['/']) (y := y)
      (by simp only [List.append_assoc]; exact List.prefix_append _ _) (by rw [e]; simp)
    have e3 : ("by_".toList ++ f.field) ++ '/' :: ((f.field ++ '=' :: f.value) ++ '/' :: y)
        = b.by_ ++ '/' :: (b.segment ++ '/' :: b.rest) := by
      simp only [List.append_assoc, List.cons_append, List.nil_append] at e2 ⊢
      exact e2
    obtain ⟨h1, h2⟩ := slash_inj n1 h.by_flat e3
    obtain ⟨h3, _⟩ := slash_inj n2 h.segment_flat h2
    exact ⟨h1.symm, h3.symm⟩
  · rintro ⟨h1, h2⟩
    exact ⟨b.pre, b.rest, by simp [Seg.path, h1, h2]⟩

/-- **C69.**  For a field and value of letters and digits and data that is partitioned by that field,
a partition filter lists exactly what a reader would of the named segment (its newest valid frame, if
it has frames), and nothing of any other segment or partitioning. -/
theorem C69_filter_selects_segment (bs : List Seg) (h : ∀ b ∈ bs, b.OK)
    (hbo : ∀ b ∈ bs, contains "BACKOUT".toList b.path = false) (f : PartitionFilter)
    (hop : f.op = "=".toList ∨ f.op = "==".toList) (hf : Safe f.field) (hv : Safe f.value)
    (hpart : ∃ b ∈ bs, b.by_ = "by_".toList ++ f.field) :
    cycleBlobs (some f) (bs.map Seg.path)
      = .ok (frameBlobs ((bs.filter (fun b => wanted f b)).map Seg.path)) := by
  have h1 : (bs.map Seg.path).filter (fun b => !contains "BACKOUT".toList b) = bs.map Seg.path := by
    rw [List.filter_eq_self]
    intro p hp
    obtain ⟨b, hb, rfl⟩ := List.mem_map.1 hp
    rw [hbo b hb]; rfl
  have hany : (dedup (bs.map (·.by_))).any (fun p => contains ("by_".toList ++ f.field) p) = true := by
    rw [List.any_eq_true]
    obtain ⟨b, hb, e⟩ := hpart
    refine ⟨b.by_, dedup_mem.2 (List.mem_map.2 ⟨b, hb, rfl⟩), ?_⟩
    rw [e]
    exact contains_iff.2 ⟨[], [], by simp⟩
  have hflt : (bs.map Seg.path).filter (fun b => contains
      (['/'] ++ ("by_".toList ++ f.field) ++ ['/'] ++ f.field ++ ['='] ++ f.value ++ ['/']) b)
      = (bs.filter (fun b => wanted f b)).map Seg.path := by
    apply filter_map_seg
    intro b hb
    rw [Bool.eq_iff_iff, contains_wanted (h b hb) f hf hv, decide_eq_true_eq]
  have hcs : '/' ∉ "by_".toList ++ f.field := by
    rw [List.mem_append, not_or]; exact ⟨by decide, safe_no_slash hf⟩
  have hflt2 : ((bs.filter (fun b => wanted f b)).map Seg.path).filter
      (fun b => contains (['/'] ++ ("by_".toList ++ f.field) ++ ['/']) b)
      = (bs.filter (fun b => wanted f b)).map Seg.path := by
    rw [List.filter_eq_self]
    intro p hp
    obtain ⟨b, hb, rfl⟩ := List.mem_map.1 hp
    obtain ⟨hb, hw⟩ := List.mem_filter.1 hb
    exact (contains_chosen (h b hb) (List.prefix_append _ _) hcs).2 (of_decide_eq_true hw).1
  unfold cycleBlobs applyFilter
  simp only [h1, partitionings_eq h, sanitize_safe hf, sanitize_safe hv]
  rw [if_neg (by
    rintro ⟨h1, h2⟩
    rcases hop with e | e
    · exact h1 e
    · exact h2 e), hany]
  simp only [if_true, hflt, sorted, insertBy, List.getLast?_singleton, hflt2]
  generalize hws : bs.filter (fun b => decide (wanted f b)) = ws
  have hw : ∀ b ∈ ws, b ∈ bs ∧ wanted f b := by
    intro b hb
    rw [← hws] at hb
    obtain ⟨hb, hw⟩ := List.mem_filter.1 hb
    exact ⟨hb, of_decide_eq_true hw⟩
  by_cases hne : ws = []
  · subst hne
    rfl
  · rw [segmentBlobs_eq (fun b hb => h b (hw b hb).1) (fun b hb => (hw b hb).2.1) hne
      (fun b hb b' hb' _ => (hw b hb).2.2.trans (hw b' hb').2.2.symm)]
    have hd : dedup (ws.map (·.segment)) = [f.field ++ '=' :: f.value] := by
      have hall : ∀ s ∈ ws.map (·.segment), s = f.field ++ '=' :: f.value := by
        intro s hs
        obtain ⟨b, hb, rfl⟩ := List.mem_map.1 hs
        exact (hw b hb).2.2
      have hn2 : ws.map (·.segment) ≠ [] := by simpa using hne
      generalize ws.map (·.segment) = m at hall hn2
      cases m with
      | nil => exact absurd rfl hn2
      | cons s m =>
        rw [dedup, hall s (by simp)]
        rw [List.filter_eq_nil_iff.2]
        intro x hx
        rw [dedup_mem] at hx
        simp [hall x (by simp [hx])]
    rw [hd]
    simp only [List.flatMap_cons, List.flatMap_nil, List.append_nil]
    rw [List.filter_eq_self.2]
    intro b hb
    exact decide_eq_true (hw b hb).2.2

/-- Without frames: exactly the blobs of the segment. -/
theorem C69_unframed (bs : List Seg) (h : ∀ b ∈ bs, b.OK)
    (hbo : ∀ b ∈ bs, contains "BACKOUT".toList b.path = false)
    (has : ∀ b ∈ bs, contains "as_at_".toList b.path = false) (f : PartitionFilter)
    (hop : f.op = "=".toList ∨ f.op = "==".toList) (hf : Safe f.field) (hv : Safe f.value)
    (hpart : ∃ b ∈ bs, b.by_ = "by_".toList ++ f.field) :
    cycleBlobs (some f) (bs.map Seg.path) = .ok ((bs.filter (fun b => wanted f b)).map Seg.path) := by
  rw [C69_filter_selects_segment bs h hbo f hop hf hv hpart, frameBlobs_unframed]
  intro p hp
  obtain ⟨b, hb, rfl⟩ := List.mem_map.1 hp
  exact has b (List.mem_filter.1 hb).1

/-- Other operators are refused. -/
theorem C69_operator_refused (stored : List Str) (f : PartitionFilter) (h1 : f.op ≠ "=".toList)
    (h2 : f.op ≠ "==".toList) : cycleBlobs (some f) stored = .error .notImplemented := by
  unfold cycleBlobs applyFilter
  simp only
  rw [if_pos ⟨h1, h2⟩]

/-- The segment is not taken for one whose name it begins, which without a filter it is
(`C20_bleed_fails`). -/
example : cycleBlobs (some ⟨"hour".toList, "==".toList, "1".toList⟩)
    ["d/by_hour/hour=1/x.jsonl".toList, "d/by_hour/hour=10/y.jsonl".toList, "d/by_user/user=1/z.jsonl".toList]
    = .ok ["d/by_hour/hour=1/x.jsonl".toList] := by decide

/-- **A field with an underscore is not filtered on**: the underscore is removed from the name, no
partitioning has the name that is left, and the filter is dropped without a word. -/
theorem C69_underscore_ignored_fails :
    cycleBlobs (some ⟨"user_id".toList, "==".toList, "1".toList⟩)
      ["d/by_user_id/user_id=1/x.jsonl".toList, "d/by_user_id/user_id=2/y.jsonl".toList]
      = .ok ["d/by_user_id/user_id=1/x.jsonl".toList, "d/by_user_id/user_id=2/y.jsonl".toList] := by decide

/-- **A value that is not letters and digits finds nothing**, though its segment exists. -/
theorem C69_value_stripped_fails :
    cycleBlobs (some ⟨"day".toList, "==".toList, "2024-01-01".toList⟩)
      ["d/by_day/day=2024-01-01/x.jsonl".toList] = .ok [] := by decide

/-- **A field whose name begins another partitioning's hides the data**: there is no partitioning by
`hour`, but `by_hourly` is taken for one. -/
theorem C69_prefix_hides_fails :
    cycleBlobs (some ⟨"hour".toList, "==".toList, "1".toList⟩)
      ["d/by_hourly/hourly=1/x.jsonl".toList] = .ok [] ∧
    cycleBlobs (some ⟨"minute".toList, "==".toList, "1".toList⟩)
      ["d/by_hourly/hourly=1/x.jsonl".toList] = .ok ["d/by_hourly/hourly=1/x.jsonl".toList] := by decide

end Mabel.Listing
