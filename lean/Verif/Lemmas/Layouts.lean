import Verif.Lemmas.StreamReach

/-!
# Layouts of a stream writer's folders beneath the day: none, and by the hour
-/

namespace Mabel.StreamStorage
open Mabel.Py Mabel.Paths Mabel.Naming Mabel.Spec Mabel.Listing Mabel.EndToEnd Mabel.Dates Mabel.History
open Mabel.WriterInit (Folders Nested)

theorem base_at (w : Job) (ls : List (List Piece)) (t : DateTime) : (on w t).base ls = join ['/'] (folderOf ls t) := rfl

theorem base_brace {w : Job} {ls : List (List Piece)} (hw : Daily w ls) {t : DateTime} (ht : Day t) :
    '{' ∉ join ['/'] (folderOf ls t) := by
  have : join ['/'] (folderOf ls t) = filled t (pathPieces ls) := (filled_path t _).symm
  rw [this]
  exact filled_no_brace ht.valid (plain_path (fun l hl => ((hw.ok t ht.valid).folders l hl).plain))

theorem base_comp {w : Job} {ls : List (List Piece)} (hw : Daily w ls) {t : DateTime} (ht : Day t) :
    ∀ c ∈ folderOf ls t, Comp c := by
  intro c hc
  obtain ⟨l, hl, rfl⟩ := List.mem_map.1 hc
  exact folder_filled ((hw.ok t ht.valid).folders l hl) ht.valid

theorem base_ne {w : Job} {ls : List (List Piece)} (hw : Daily w ls) {t : DateTime} (ht : Day t) : folderOf ls t ≠ [] := by
  simpa [folderOf] using (hw.ok t ht.valid).ne

/-! ## The day -/

theorem plain_blob {w : Job} {ls : List (List Piece)} (hw : Daily w ls) {t : DateTime} (ht : Day t) {i : Str} (hi : HexId i) :
    let b := join ['/'] (folderOf ls t) ++ '/' :: (i ++ extension w.format)
    contains "/by_".toList b = false ∧ contains "BACKOUT".toList b = false ∧ contains "as_at_".toList b = false ∧
      '/' ∈ b := by
  have hb := hw.plain t ht
  rw [base_at] at hb
  obtain ⟨n1, n2, n3⟩ := name_plain (format := w.format) hi
  intro b
  refine ⟨?_, ?_, ?_, by simp [b]⟩
  · refine contains_sep (m := "by_".toList) (by decide) hb.by_ ?_ (contains_of_not_mem (c := '/') (by decide) n1)
    rintro ⟨z, hz⟩
    exact n2 (by rw [← hz]; exact List.mem_append_left _ (by decide))
  · rw [← Bool.not_eq_true, contains_slash (by decide) (by decide), hb.backout,
      contains_of_not_mem (c := 'B') (by decide) n3]
    simp
  · rw [← Bool.not_eq_true, contains_slash (by decide) (by decide), hb.as_at,
      contains_of_not_mem (c := '_') (by decide) n2]
    simp

/-- The writer's folders are those of the reader. -/
theorem layout_plain {w : Job} {ls : List (List Piece)} (hw : Daily w ls) (hn : Nested ls) :
    Layout w ls 0 none [[]] [[]] where
  folders t ht sb hsb := by
    rw [List.mem_singleton.1 hsb, List.append_nil]
    exact WriterInit.folders_filled (hw.ok t ht.valid).folders hn ht.valid
  brace t ht sb hsb := by
    rw [List.mem_singleton.1 hsb, place, List.append_nil]
    exact base_brace hw ht
  len := by simp
  among sb h := h
  order := by simp
  clean t ht sb hsb i hi := by
    rw [List.mem_singleton.1 hsb, place, List.append_nil]
    exact (plain_blob hw ht hi).2.1
  pick t ht zs hzs := by
    have hin : zs.filter (fun z => decide (z.1 ∈ [([] : List Str)])) = zs := by
      rw [List.filter_eq_self]
      intro z hz
      exact decide_eq_true (hzs z hz).1
    rw [hin]
    generalize hstored : zs.map (fun z => place ls t z.1 ++ '/' :: (z.2 ++ extension w.format)) = stored
    have hall : ∀ b ∈ stored, contains "/by_".toList b = false ∧ contains "BACKOUT".toList b = false ∧
        contains "as_at_".toList b = false ∧ '/' ∈ b := by
      intro b hb
      rw [← hstored] at hb
      obtain ⟨z, hz, rfl⟩ := List.mem_map.1 hb
      obtain ⟨h1, h2, -⟩ := hzs z hz
      rw [List.mem_singleton.1 h1, place, List.append_nil]
      exact plain_blob hw ht h2
    have h1 : stored.filter (fun b => !contains "BACKOUT".toList b) = stored := by
      rw [List.filter_eq_self]
      intro b hb
      rw [(hall b hb).2.1]
      rfl
    refine ⟨stored, ?_, List.Perm.refl _⟩
    unfold cycleBlobs applyFilter
    simp only [h1, partitionings_nil (fun b hb => (hall b hb).1), sorted, List.getLast?_nil]
    rw [segmentBlobs_plain _ (fun b hb => (hall b hb).2.2.2), frameBlobs_unframed (fun b hb => (hall b hb).2.2.1)]

theorem timed_plain : Timed [] [[]] := ⟨by simp, fun u _ => by simp [folderOf]⟩

/-! ## The hours -/

/-- The partition `by_hour/hour={HH}`. -/
def hourPieces : List (List Piece) := [[.lit "by_hour".toList], [.lit "hour=".toList, .field .HH]]

/-- The folders of an hour. -/
def hourFolders (h : Nat) : List Str := ["by_hour".toList, "hour=".toList ++ two h]

theorem hour_of (u : DateTime) : folderOf hourPieces u = hourFolders u.hour := by
  simp [folderOf, hourPieces, hourFolders, filled, Field.text, Field.value]

theorem two_char {h : Nat} (hh : h < 24) {c : Char} (hc : c ∈ two h) : ∃ k < 10, c = digitChar k := by
  unfold two at hc
  simp only [List.mem_cons, List.not_mem_nil, or_false] at hc
  rcases hc with rfl | rfl
  · exact ⟨_, by omega, rfl⟩
  · exact ⟨_, by omega, rfl⟩

theorem hour_not {h : Nat} (hh : h < 24) {c : Char} (h1 : c ∉ "hour=".toList) (h2 : ∀ k < 10, digitChar k ≠ c) :
    c ∉ "hour=".toList ++ two h := by
  intro hm
  rcases List.mem_append.1 hm with hm | hm
  · exact h1 hm
  · obtain ⟨k, hk, e⟩ := two_char hh hm
    exact h2 k hk e.symm

theorem hour_comp {h : Nat} (hh : h < 24) : ∀ c ∈ hourFolders h, Comp c := by
  intro c hc
  simp only [hourFolders, List.mem_cons, List.not_mem_nil, or_false] at hc
  rcases hc with rfl | rfl
  · exact ⟨by decide, by decide, by decide⟩
  · exact ⟨by simp, by intro e; exact absurd (congrArg List.head? e) (by simp), hour_not hh (by decide) (by decide)⟩

theorem hour_path {cs : List Str} (hne : cs ≠ []) (h : Nat) :
    join ['/'] (cs ++ hourFolders h) = join ['/'] cs ++ '/' :: ("by_hour".toList ++ '/' :: ("hour=".toList ++ two h)) := by
  have e : cs ++ hourFolders h = (cs ++ ["by_hour".toList]) ++ ["hour=".toList ++ two h] := by simp [hourFolders]
  rw [e, join_snoc _ _ (by simp), join_snoc _ _ hne]
  simp

theorem hour_contains {m base name : Str} {h : Nat} (hm : m ≠ []) (hs : '/' ∉ m) (h1 : contains m base = false)
    (h2 : contains m "by_hour".toList = false) (h3 : contains m ("hour=".toList ++ two h) = false)
    (h4 : contains m name = false) :
    contains m (base ++ '/' :: ("by_hour".toList ++ '/' :: ("hour=".toList ++ two h)) ++ '/' :: name) = false := by
  rw [← Bool.not_eq_true, contains_slash hm hs, contains_slash hm hs, contains_slash hm hs, h1, h2, h3, h4]
  simp

theorem timed_hour : Timed hourPieces ((List.range 24).map hourFolders) where
  folders := by
    intro l hl
    simp only [hourPieces, List.mem_cons, List.not_mem_nil, or_false] at hl
    rcases hl with rfl | rfl <;>
      refine ⟨?_, ?_, by decide, by decide⟩ <;>
      (intro s hs
       simp only [List.mem_cons, List.not_mem_nil, or_false, Piece.lit.injEq, reduceCtorEq] at hs
       subst hs
       decide)
  sub u hu := by
    rw [hour_of]
    exact List.mem_map.2 ⟨u.hour, List.mem_range.2 (by have := (DateTime.valid_iff u).1 hu; omega), rfl⟩

/-- The writer's folders are those of the reader and then the hours. -/
theorem layout_hour {w : Job} {ls : List (List Piece)} (hw : Daily w ls)
    (hby : ∀ t, Day t → contains "by_".toList (join ['/'] (folderOf ls t)) = false) :
    Layout w ls 2 none ((List.range 24).map hourFolders) ((List.range 24).map hourFolders) where
  folders t ht sb hsb := by
    obtain ⟨h, hh, rfl⟩ := List.mem_map.1 hsb
    have hh := List.mem_range.1 hh
    refine ⟨?_, by simp [hourFolders], ?_⟩
    · intro c hc
      rcases List.mem_append.1 hc with hc | hc
      · exact base_comp hw ht c hc
      · exact hour_comp hh c hc
    · intro c hc
      rw [List.getLast?_append] at hc
      simp only [hourFolders, List.getLast?_cons_cons, List.getLast?_singleton, Option.some_or, Option.mem_def,
        Option.some.injEq] at hc
      subst hc
      exact hour_not hh (by decide) (by decide)
  brace t ht sb hsb := by
    obtain ⟨h, hh, rfl⟩ := List.mem_map.1 hsb
    have hh := List.mem_range.1 hh
    rw [place, hour_path (base_ne hw ht)]
    have h1 := base_brace hw ht
    have h2 : '{' ∉ "hour=".toList ++ two h := hour_not hh (by decide) (by decide)
    simp only [List.mem_append, List.mem_cons, not_or] at h1 h2 ⊢
    exact ⟨h1, by decide, by decide, by decide, h2⟩
  len sb hsb := by
    obtain ⟨h, hh, rfl⟩ := List.mem_map.1 hsb
    rfl
  among sb h := h
  order := by
    rw [List.pairwise_map]
    refine List.Pairwise.imp_of_mem ?_ (List.pairwise_lt_range (n := 24))
    intro a b ha hb hab t ht
    have hne := base_ne hw ht
    rw [place, place, hour_path hne, hour_path hne]
    constructor
    · simp [two]
    · have := (two_lt (a := a) (b := b) (by have := List.mem_range.1 ha; omega) (by have := List.mem_range.1 hb; omega)).2 hab
      have e : ∀ h, join ['/'] (folderOf ls t) ++ '/' :: ("by_hour".toList ++ '/' :: ("hour=".toList ++ two h))
          = (join ['/'] (folderOf ls t) ++ '/' :: ("by_hour".toList ++ '/' :: "hour=".toList)) ++ two h := by
        intro h; simp
      rw [e, e]
      exact (append_lt_append rfl).2 (Or.inr ⟨rfl, this⟩)
  clean t ht sb hsb i hi := by
    obtain ⟨h, hh, rfl⟩ := List.mem_map.1 hsb
    have hh := List.mem_range.1 hh
    have hb := hw.plain t ht
    rw [base_at] at hb
    obtain ⟨n1, n2, n3⟩ := name_plain (format := w.format) hi
    rw [place, hour_path (base_ne hw ht)]
    exact hour_contains (by decide) (by decide) hb.backout (by decide)
      (contains_of_not_mem (c := 'B') (by decide) (hour_not hh (by decide) (by decide)))
      (contains_of_not_mem (c := 'B') (by decide) n3)
  pick t ht zs hzs := by
    have hin : zs.filter (fun z => decide (z.1 ∈ (List.range 24).map hourFolders)) = zs := by
      rw [List.filter_eq_self]
      intro z hz
      exact decide_eq_true (hzs z hz).1
    rw [hin]
    generalize hstored : zs.map (fun z => place ls t z.1 ++ '/' :: (z.2 ++ extension w.format)) = stored
    have hne := base_ne hw ht
    have hb := hw.plain t ht
    rw [base_at] at hb
    obtain ⟨bs, rfl, hbs⟩ := exists_map (f := Seg.path) (P := fun b => ∃ h < 24, ∃ i, HexId i ∧
        b = ⟨join ['/'] (folderOf ls t), "by_hour".toList, "hour=".toList ++ two h, i ++ extension w.format⟩) stored (by
      intro b hb
      rw [← hstored] at hb
      obtain ⟨z, hz, rfl⟩ := List.mem_map.1 hb
      obtain ⟨hsb, hi, -⟩ := hzs z hz
      obtain ⟨h, hh, e⟩ := List.mem_map.1 hsb
      refine ⟨_, ⟨h, List.mem_range.1 hh, z.2, hi, rfl⟩, ?_⟩
      rw [← e, place, hour_path hne]
      simp [Seg.path])
    cases hcs : bs with
    | nil => exact ⟨[], by decide, by simp⟩
    | cons b0 bs0 =>
      rw [← hcs]
      obtain ⟨l, h1, h2⟩ := C20_each_once_partial bs
        (by
          intro b hm
          obtain ⟨h, hh, i, hi, rfl⟩ := hbs b hm
          obtain ⟨n1, n2, n3⟩ := name_plain (format := w.format) hi
          exact ⟨show "by_".toList <+: "by_hour".toList by decide,
            show contains "by_".toList "by_hour".toList.tail = false by decide,
            show '/' ∉ "by_hour".toList by decide, hour_not hh (by decide) (by decide), hby t ht,
            contains_of_not_mem (c := '_') (by decide) (hour_not hh (by decide) (by decide)),
            contains_of_not_mem (c := '_') (by decide) n2⟩)
        (by
          intro b hm
          obtain ⟨h, hh, i, hi, rfl⟩ := hbs b hm
          obtain ⟨n1, n2, n3⟩ := name_plain (format := w.format) hi
          unfold Seg.path
          simp only [List.append_assoc, List.cons_append]
          have := hour_contains (name := i ++ extension w.format) (h := h) (by decide) (by decide) hb.backout (by decide)
            (contains_of_not_mem (c := 'B') (by decide) (hour_not hh (by decide) (by decide)))
            (contains_of_not_mem (c := 'B') (by decide) n3)
          simpa only [List.append_assoc, List.cons_append] using this)
        (by
          intro b hm
          obtain ⟨h, hh, i, hi, rfl⟩ := hbs b hm
          obtain ⟨n1, n2, n3⟩ := name_plain (format := w.format) hi
          unfold Seg.path
          simp only [List.append_assoc, List.cons_append]
          have := hour_contains (name := i ++ extension w.format) (h := h) (by decide) (by decide) hb.as_at (by decide)
            (contains_of_not_mem (c := '_') (by decide) (hour_not hh (by decide) (by decide)))
            (contains_of_not_mem (c := '_') (by decide) n2)
          simpa only [List.append_assoc, List.cons_append] using this)
        "by_hour".toList
        ⟨by
          obtain ⟨h, hh, i, hi, e⟩ := hbs b0 (by simp [hcs])
          exact ⟨b0, by simp [hcs], by rw [e]⟩, by
          intro b hm
          obtain ⟨h, hh, i, hi, rfl⟩ := hbs b hm
          show strLe "by_hour".toList "by_hour".toList = true
          decide⟩
        (by
          intro b hm _ b' hm' _ hp
          obtain ⟨h, hh, i, hi, rfl⟩ := hbs b hm
          obtain ⟨h', hh', i', hi', rfl⟩ := hbs b' hm'
          exact hp.eq_of_length (by simp [two]))
      refine ⟨l, h1, h2.trans ?_⟩
      rw [List.filter_eq_self.2]
      intro b hm
      obtain ⟨h, hh, i, hi, rfl⟩ := hbs b hm
      exact decide_eq_true rfl

end Mabel.StreamStorage
