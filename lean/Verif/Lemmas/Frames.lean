import Verif.Lemmas.Listing
import Verif.Spec.Listing

/-! # Frames and segments: texts and parts -/

namespace Mabel.Listing
open Mabel.Py Mabel.Spec

theorem asAt_no_slash : '/' ∉ "as_at_".toList := by decide
theorem asAt_ne : "as_at_".toList ≠ [] := by decide

/-- `as_at_` occurs in the name of a framed blob only at its frame. -/
theorem asAt_unique {b : Framed} (h : b.OK) {x z : Str} (e : b.path = x ++ "as_at_".toList ++ z) :
    x = b.base ++ ['/'] := by
  unfold Framed.path at e
  rw [List.append_assoc, List.cons_append] at e
  rcases occ_slash asAt_ne asAt_no_slash e with ⟨w, hw⟩ | ⟨w, h1, h2⟩
  · exact absurd ⟨x, w, hw⟩ (contains_false.1 h.base_plain)
  · rcases occ_slash asAt_ne asAt_no_slash h2 with ⟨v, hv⟩ | ⟨v, h3, h4⟩
    · cases w with
      | nil => rw [h1]
      | cons c w =>
        exfalso
        refine (contains_false.1 h.frame_once) ⟨w, v, ?_⟩
        rw [hv]; rfl
    · exact absurd ⟨v, z, h4⟩ (contains_false.1 h.name_plain)

theorem frame_prefix_cancel {b : Framed} (h : b.OK) {f x y : Str} (hf : "as_at_".toList <+: f)
    (e : b.path = x ++ f ++ y) : f ++ y = b.frame ++ '/' :: b.name := by
  obtain ⟨g, rfl⟩ := hf
  have hx := asAt_unique h (x := x) (z := g ++ y) (by rw [e]; simp)
  rw [hx, Framed.path] at e
  simp only [List.append_assoc, List.cons_append, List.nil_append, List.append_cancel_left_eq,
    List.cons.injEq, true_and] at e ⊢
  exact e.symm

/-- A marker of frame `f` is found in a blob's name iff the blob is one. -/
theorem contains_marker {b : Framed} (h : b.OK) {f m : Str} (hf : "as_at_".toList <+: f) (hs : '/' ∉ f) :
    contains (f ++ '/' :: m) b.path = true ↔ b.frame = f ∧ m <+: b.name := by
  rw [contains_iff]
  constructor
  · rintro ⟨x, y, e⟩
    have e2 := frame_prefix_cancel h (f := f ++ '/' :: m) (hf.trans (List.prefix_append _ _)) e
    rw [List.append_assoc, List.cons_append] at e2
    obtain ⟨h1, h2⟩ := slash_inj hs h.frame_flat e2
    exact ⟨h1.symm, ⟨y, h2⟩⟩
  · rintro ⟨rfl, y, hy⟩
    exact ⟨b.base ++ ['/'], y, by simp [Framed.path, ← hy]⟩

/-- A frame's name is found in a blob's name iff it begins the blob's frame. -/
theorem contains_frame {b : Framed} (h : b.OK) {f : Str} (hf : "as_at_".toList <+: f) (hs : '/' ∉ f) :
    contains f b.path = true ↔ f <+: b.frame := by
  rw [contains_iff]
  constructor
  · rintro ⟨x, y, e⟩
    exact prefix_slash hs (frame_prefix_cancel h hf e)
  · rintro ⟨y, hy⟩
    exact ⟨b.base ++ ['/'], y ++ '/' :: b.name, by simp [Framed.path, ← hy]⟩

theorem contains_asAt {b : Framed} (h : b.OK) : contains "as_at_".toList b.path = true :=
  (contains_frame h List.prefix_rfl asAt_no_slash).2 h.frame_as_at

theorem extractAsAt_path {b : Framed} (h : b.OK) : extractAsAt b.path = b.frame := by
  unfold extractAsAt Framed.path
  rw [List.append_assoc, List.cons_append, split_slash, split_append h.frame_flat, List.find?_append]
  have : (split '/' b.base).find? (fun p => startsWith "as_at_".toList p) = none := by
    rw [List.find?_eq_none]
    intro p hp hst
    obtain ⟨t, ht⟩ := isPrefixOf_iff.1 hst
    have h1 := mem_split_contains hp
    obtain ⟨x, y, e⟩ := contains_iff.1 h1
    refine (contains_false.1 h.base_plain) ⟨x, t ++ y, ?_⟩
    rw [e, ht]; simp
  rw [this, Option.none_or, List.find?_cons_of_pos]
  · rfl
  · exact List.isPrefixOf_iff_prefix.2 h.frame_as_at

/-- An occurrence of `/m`. -/
theorem occ_sep {a b m x y : Str} (hm : '/' ∉ m) (h : a ++ '/' :: b = x ++ '/' :: m ++ y) :
    (∃ w, a = x ++ '/' :: m ++ w) ∨ (x = a ∧ b = m ++ y) ∨
      (∃ w, x = a ++ '/' :: w ∧ b = w ++ '/' :: m ++ y) := by
  rw [List.append_assoc, List.cons_append] at h
  rcases List.append_eq_append_iff.1 h with ⟨c, h1, h2⟩ | ⟨c, h1, h2⟩
  · right
    cases c with
    | nil =>
      left
      simp only [List.nil_append, List.cons.injEq, true_and] at h2
      exact ⟨by rw [h1]; simp, h2⟩
    | cons z c =>
      right
      simp only [List.cons_append, List.cons.injEq] at h2
      exact ⟨c, by rw [h1, ← h2.1], by rw [h2.2]; simp⟩
  · cases c with
    | nil =>
      right; left
      simp only [List.nil_append, List.cons.injEq, true_and] at h2
      exact ⟨by rw [h1]; simp, h2.symm⟩
    | cons z c =>
      left
      simp only [List.cons_append, List.cons.injEq] at h2
      obtain ⟨w, hw⟩ := prefix_slash hm h2.2
      exact ⟨w, by rw [h1, ← h2.1, ← hw]; simp⟩

theorem contains_complete {b : Framed} (h : b.OK) :
    contains "/frame.complete".toList b.path = true ↔ b.Marker := by
  have e0 : "/frame.complete".toList = '/' :: "frame.complete".toList := rfl
  rw [contains_iff]
  constructor
  · rintro ⟨x, y, e⟩
    rw [e0, Framed.path, List.append_assoc, List.cons_append] at e
    rcases occ_sep (by decide) e with ⟨w, hw⟩ | ⟨_, h2⟩ | ⟨w, _, h2⟩
    · exact absurd ⟨x, w, hw⟩ (contains_false.1 h.base_marker)
    · obtain ⟨t, ht⟩ := h.frame_as_at
      rw [← ht] at h2
      exact absurd (congrArg List.head? h2) (by simp)
    · rcases occ_sep (by decide) h2 with ⟨v, hv⟩ | ⟨_, h4⟩ | ⟨v, _, h4⟩
      · exact absurd (by rw [hv]; simp) h.frame_flat
      · exact ⟨y, h4.symm⟩
      · exact absurd (by rw [h4]; simp) h.name_flat
  · rintro ⟨y, hy⟩
    exact ⟨b.base ++ '/' :: b.frame, y, by rw [e0]; simp [Framed.path, ← hy]⟩

/-! ## The frame that is read -/

theorem isComplete_iff {bs : List Framed} (h : ∀ b ∈ bs, b.OK) {f : Str} (hf : "as_at_".toList <+: f)
    (hs : '/' ∉ f) : isComplete f (bs.map Framed.path) = true ↔ Complete bs f := by
  unfold isComplete Complete
  rw [List.any_map, List.any_eq_true]
  constructor
  · rintro ⟨b, hb, hc⟩
    exact ⟨b, hb, (contains_marker (h b hb) hf hs).1 hc⟩
  · rintro ⟨b, hb, hc⟩
    exact ⟨b, hb, (contains_marker (h b hb) hf hs (m := "frame.complete".toList)).2 hc⟩

theorem isInvalid_iff {bs : List Framed} (h : ∀ b ∈ bs, b.OK) {f : Str} (hf : "as_at_".toList <+: f)
    (hs : '/' ∉ f) : isInvalid f (bs.map Framed.path) = true ↔ Ignored bs f := by
  unfold isInvalid Ignored
  rw [List.any_map, List.any_eq_true]
  constructor
  · rintro ⟨b, hb, hc⟩
    exact ⟨b, hb, (contains_marker (h b hb) hf hs).1 hc⟩
  · rintro ⟨b, hb, hc⟩
    exact ⟨b, hb, (contains_marker (h b hb) hf hs (m := "frame.ignore".toList)).2 hc⟩

theorem asAts_eq {bs : List Framed} (h : ∀ b ∈ bs, b.OK) :
    ((bs.map Framed.path).filter (fun b => contains "as_at_".toList b)).map extractAsAt
      = bs.map (·.frame) := by
  rw [List.filter_eq_self.2]
  · rw [List.map_map]
    apply List.map_congr_left
    intro b hb
    exact extractAsAt_path (h b hb)
  · intro p hp
    obtain ⟨b, hb, rfl⟩ := List.mem_map.1 hp
    exact contains_asAt (h b hb)

theorem filter_map_path {bs : List Framed} {p : Str → Bool} {q : Framed → Bool}
    (h : ∀ b ∈ bs, p b.path = q b) : (bs.map Framed.path).filter p = (bs.filter q).map Framed.path := by
  rw [List.filter_map]
  congr 1
  apply List.filter_congr
  intro b hb
  exact h b hb

/-- What the reader takes from the frames of a folder. -/
theorem frameBlobs_newest {bs : List Framed} (h : ∀ b ∈ bs, b.OK) (hu : Unambiguous bs) {f : Str}
    (hn : Newest bs f) :
    frameBlobs (bs.map Framed.path) =
      (bs.filter (fun b => decide (b.frame = f ∧ ¬ b.Marker))).map Framed.path := by
  obtain ⟨b0, hb0, hb0f, hb0m⟩ := hn.complete
  have hfa : "as_at_".toList <+: f := hb0f ▸ (h b0 hb0).frame_as_at
  have hfs : '/' ∉ f := hb0f ▸ (h b0 hb0).frame_flat
  have hne : dedup (bs.map (·.frame)) ≠ [] := by
    rw [Ne, dedup_eq_nil]
    intro e
    rw [List.map_eq_nil_iff] at e
    rw [e] at hb0; simp at hb0
  have hpick : pickFrame (bs.map Framed.path) (sorted strLe (dedup (bs.map (·.frame)))).reverse
      = some f := by
    rw [pickFrame_eq_find]
    apply find_greatest
    · rw [dedup_mem]; exact List.mem_map.2 ⟨b0, hb0, hb0f⟩
    · rw [Bool.and_eq_true, Bool.not_eq_true', isComplete_iff h hfa hfs]
      refine ⟨hn.complete, ?_⟩
      cases hi : isInvalid f (bs.map Framed.path) with
      | false => rfl
      | true => exact absurd ((isInvalid_iff h hfa hfs).1 hi) hn.notIgnored
    · intro g hg hp
      rw [dedup_mem] at hg
      obtain ⟨b, hb, rfl⟩ := List.mem_map.1 hg
      have hga := (h b hb).frame_as_at
      have hgs := (h b hb).frame_flat
      rw [Bool.and_eq_true, Bool.not_eq_true', isComplete_iff h hga hgs] at hp
      refine hn.newest _ hp.1 ?_
      intro hi
      rw [(isInvalid_iff h hga hgs).2 hi] at hp
      exact absurd hp.2 (by simp)
  unfold frameBlobs
  simp only [asAts_eq h, hne, if_false, hpick]
  apply filter_map_path
  intro b hb
  rw [Bool.eq_iff_iff, Bool.and_eq_true, contains_frame (h b hb) hfa hfs, Bool.not_eq_true',
    decide_eq_true_eq]
  constructor
  · rintro ⟨h1, h2⟩
    refine ⟨?_, ?_⟩
    · rw [← hb0f] at h1 ⊢
      exact (hu b0 hb0 b hb h1).symm
    · intro hm
      rw [(contains_complete (h b hb)).2 hm] at h2
      exact absurd h2 (by simp)
  · rintro ⟨h1, h2⟩
    refine ⟨h1 ▸ List.prefix_rfl, ?_⟩
    cases hc : contains "/frame.complete".toList b.path with
    | false => rfl
    | true => exact absurd ((contains_complete (h b hb)).1 hc) h2

theorem frameBlobs_none {bs : List Framed} (h : ∀ b ∈ bs, b.OK)
    (hn : ∀ f, Complete bs f → Ignored bs f) : frameBlobs (bs.map Framed.path) = [] := by
  cases bs with
  | nil => rfl
  | cons b0 bs' =>
    generalize hbs : b0 :: bs' = bs at *
    have hne : dedup (bs.map (·.frame)) ≠ [] := by
      rw [Ne, dedup_eq_nil, ← hbs]; simp
    have hpick : pickFrame (bs.map Framed.path) (sorted strLe (dedup (bs.map (·.frame)))).reverse
        = none := by
      rw [pickFrame_eq_find, List.find?_eq_none]
      intro g hg hp
      rw [List.mem_reverse, mem_sorted, dedup_mem] at hg
      obtain ⟨b, hb, rfl⟩ := List.mem_map.1 hg
      have hga := (h b hb).frame_as_at
      have hgs := (h b hb).frame_flat
      rw [Bool.and_eq_true, Bool.not_eq_true', isComplete_iff h hga hgs] at hp
      have := (isInvalid_iff h hga hgs).2 (hn _ hp.1)
      rw [this] at hp
      exact absurd hp.2 (by simp)
    unfold frameBlobs
    simp only [asAts_eq h, hne, if_false, hpick]

/-! ## Segments -/

theorem by_no_slash : '/' ∉ "by_".toList := by decide
theorem by_ne : "by_".toList ≠ [] := by decide

theorem by_unique {b : Seg} (h : b.OK) {x z : Str} (e : b.path = x ++ "by_".toList ++ z) :
    x = b.pre ++ ['/'] := by
  unfold Seg.path at e
  simp only [List.append_assoc, List.cons_append] at e
  rw [← List.append_assoc] at e
  rcases occ_slash by_ne by_no_slash e with ⟨w, hw⟩ | ⟨w, h1, h2⟩
  · exact absurd ⟨x, w, hw⟩ (contains_false.1 h.pre_plain)
  · rcases occ_slash by_ne by_no_slash h2 with ⟨v, hv⟩ | ⟨v, h3, h4⟩
    · cases w with
      | nil => rw [h1]
      | cons c w =>
        exfalso
        refine (contains_false.1 h.by_once) ⟨w, v, ?_⟩
        rw [hv]; rfl
    · rcases occ_slash by_ne by_no_slash h4 with ⟨u, hu⟩ | ⟨u, h5, h6⟩
      · exact absurd ⟨_, _, hu⟩ (contains_false.1 h.segment_plain)
      · exact absurd ⟨_, _, h6⟩ (contains_false.1 h.rest_plain)

theorem by_cancel {b : Seg} (h : b.OK) {c x y : Str} (hc : "by_".toList <+: c)
    (e : b.path = x ++ c ++ y) : x = b.pre ++ ['/'] ∧
      c ++ y = b.by_ ++ '/' :: b.segment ++ '/' :: b.rest := by
  obtain ⟨g, rfl⟩ := hc
  have hx := by_unique h (x := x) (z := g ++ y) (by rw [e]; simp)
  refine ⟨hx, ?_⟩
  rw [hx, Seg.path] at e
  simp only [List.append_assoc, List.cons_append, List.nil_append, List.append_cancel_left_eq,
    List.cons.injEq, true_and] at e ⊢
  exact e.symm

/-- The folder test finds a segment's blobs, and those of the segments it is the beginning of. -/
theorem contains_segment {b : Seg} (h : b.OK) {c s : Str} (hc : "by_".toList <+: c) (hcs : '/' ∉ c)
    (hs : '/' ∉ s) :
    contains (c ++ ['/'] ++ s) b.path = true ↔ b.by_ = c ∧ s <+: b.segment := by
  rw [contains_iff]
  constructor
  · rintro ⟨x, y, e⟩
    obtain ⟨_, e2⟩ := by_cancel h (c := c ++ ['/'] ++ s)
      (by rw [List.append_assoc]; exact hc.trans (List.prefix_append _ _)) e
    simp only [List.append_assoc, List.cons_append, List.nil_append] at e2
    obtain ⟨h1, h2⟩ := slash_inj hcs h.by_flat e2
    exact ⟨h1.symm, prefix_slash hs h2⟩
  · rintro ⟨rfl, t, ht⟩
    exact ⟨b.pre ++ ['/'], t ++ '/' :: b.rest, by simp [Seg.path, ← ht]⟩

theorem contains_chosen {b : Seg} (h : b.OK) {c : Str} (hc : "by_".toList <+: c) (hcs : '/' ∉ c) :
    contains (['/'] ++ c ++ ['/']) b.path = true ↔ b.by_ = c := by
  rw [contains_iff]
  constructor
  · rintro ⟨x, y, e⟩
    obtain ⟨_, e2⟩ := by_cancel h (c := c ++ ['/']) (x := x ++ ['/']) (y := y)
      (hc.trans (List.prefix_append _ _)) (by rw [e]; simp)
    simp only [List.append_assoc, List.cons_append, List.nil_append] at e2
    exact (slash_inj hcs h.by_flat e2).1.symm
  · rintro rfl
    exact ⟨b.pre, b.segment ++ '/' :: b.rest, by simp [Seg.path]⟩

theorem split_seg {b : Seg} (h : b.OK) :
    split '/' b.path = split '/' b.pre ++ b.by_ :: b.segment :: split '/' b.rest := by
  unfold Seg.path
  simp only [List.append_assoc, List.cons_append]
  rw [split_slash, split_append h.by_flat, split_append h.segment_flat]

theorem pre_not_by {b : Seg} (h : b.OK) {p : Str} (hp : p ∈ split '/' b.pre) : ¬ "by_".toList <+: p := by
  rintro ⟨t, ht⟩
  obtain ⟨x, y, e⟩ := contains_iff.1 (mem_split_contains hp)
  refine (contains_false.1 h.pre_plain) ⟨x, t ++ y, ?_⟩
  rw [e, ← ht]; simp

theorem extractBy_path {b : Seg} (h : b.OK) : extractBy b.path = some b.by_ := by
  unfold extractBy
  rw [split_seg h, List.find?_append]
  have : (split '/' b.pre).find? (fun p => startsWith "by_".toList p) = none := by
    rw [List.find?_eq_none]
    intro p hp hst
    exact pre_not_by h hp (List.isPrefixOf_iff_prefix.1 hst)
  rw [this, Option.none_or, List.find?_cons_of_pos]
  exact List.isPrefixOf_iff_prefix.2 h.by_by

theorem safeGetNext_append {l m : List Str} {c : Str} (h : c ∉ l) :
    safeGetNext (l ++ m) c = safeGetNext m c := by
  induction l with
  | nil => rfl
  | cons x l ih =>
    simp only [List.mem_cons, not_or] at h
    rw [List.cons_append, safeGetNext, if_neg (fun e => h.1 e.symm), ih h.2]

theorem safeGetNext_path {b : Seg} (h : b.OK) :
    safeGetNext (split '/' b.path) b.by_ = some b.segment := by
  rw [split_seg h, safeGetNext_append (fun hm => pre_not_by h hm h.by_by), safeGetNext, if_pos rfl]
  rfl

theorem contains_slash_by {b : Seg} (h : b.OK) : contains "/by_".toList b.path = true := by
  obtain ⟨t, ht⟩ := h.by_by
  exact contains_iff.2 ⟨b.pre, t ++ '/' :: b.segment ++ '/' :: b.rest, by simp [Seg.path, ← ht]⟩

theorem filter_map_seg {bs : List Seg} {p : Str → Bool} {q : Seg → Bool}
    (h : ∀ b ∈ bs, p b.path = q b) : (bs.map Seg.path).filter p = (bs.filter q).map Seg.path := by
  rw [List.filter_map]
  congr 1
  apply List.filter_congr
  intro b hb
  exact h b hb

theorem partitionings_eq {bs : List Seg} (h : ∀ b ∈ bs, b.OK) :
    partitionings (bs.map Seg.path) = dedup (bs.map (·.by_)) := by
  unfold partitionings
  congr 1
  rw [List.filter_eq_self.2]
  · rw [List.filterMap_map]
    induction bs with
    | nil => rfl
    | cons b bs ih =>
      rw [List.filterMap_cons, Function.comp, extractBy_path (h b (by simp))]
      simp only [List.map_cons]
      rw [← ih (fun b hb => h b (by simp [hb]))]
  · intro p hp
    obtain ⟨b, hb, rfl⟩ := List.mem_map.1 hp
    exact contains_slash_by (h b hb)

end Mabel.Listing
