import Verif.Lemmas.Layouts
import Verif.Props.Partition
import Verif.Props.Routing
import Verif.Spec.StreamStorage

/-!
# A layout of a stream writer's folders beneath the day: by the values of a field
-/

namespace Mabel.StreamStorage
open Mabel.Py Mabel.Paths Mabel.Naming Mabel.Spec Mabel.Listing Mabel.EndToEnd Mabel.Dates Mabel.History
open Mabel.WriterInit (Folders Nested)
open Mabel.Text (sanitize)
open Mabel.Stream.Spec (routed)
variable {ρ β : Type}

/-! ## Texts -/

theorem contains_eq {sub a b : Str} (hne : sub ≠ []) (hs : '=' ∉ sub) (ha : contains sub a = false)
    (hb : contains sub b = false) : contains sub (a ++ '=' :: b) = false := by
  rw [contains_false] at *
  rintro ⟨x, y, e⟩
  have e : (x ++ sub) ++ y = a ++ '=' :: b := by rw [← e]
  rcases List.append_eq_append_iff.1 e with ⟨z, e1, e2⟩ | ⟨z, e1, e2⟩
  · exact ha ⟨x, z, by rw [e1]⟩
  · cases z with
    | nil => exact ha ⟨x, [], by simpa using e1.symm⟩
    | cons c z =>
      rw [List.cons_append, List.cons.injEq] at e2
      obtain ⟨rfl, e2⟩ := e2
      rcases List.append_eq_append_iff.1 e1 with ⟨u, e3, e4⟩ | ⟨u, e3, e4⟩
      · exact hs (by rw [e4]; simp)
      · cases u with
        | nil => exact hs (by rw [List.nil_append] at e4; rw [← e4]; simp)
        | cons c' u =>
          rw [List.cons_append, List.cons.injEq] at e4
          exact hb ⟨u, y, by rw [e2, e4.2]⟩

/-- The names of the places for the parts of a date. -/
def dateNames : List Str := ["yyyy".toList, "mm".toList, "dd".toList, "HH".toList, "MM".toList, "SS".toList]

/-- A place of another name is left alone. -/
theorem replace_place {k new a F : Str} (hk : '{' ∉ k ∧ '}' ∉ k) (hF : '{' ∉ F ∧ '}' ∉ F) (hne : k ≠ F) :
    replace ('{' :: (k ++ ['}'])) new (a ++ '{' :: (F ++ ['}'])) = replace ('{' :: (k ++ ['}'])) new a ++ '{' :: (F ++ ['}']) := by
  have hkb : '{' ∉ k ++ ['}'] := by simp [hk.1]
  unfold replace
  rw [replaceGo_append a 0 (by simp)]
  · congr 1
    rw [replaceGo, if_neg]
    · have := Mabel.Paths.replaceGo_lit (tok := k ++ ['}']) (new := new) (F ++ ['}']) [] (by simp [hF.1])
      simp only [List.append_nil] at this
      rw [this]
      simp [replaceGo]
    · rw [isPrefixOf_iff]
      rintro ⟨z, e⟩
      simp only [List.cons_append, List.cons.injEq, true_and, List.append_assoc, List.nil_append] at e
      have h1 := Mabel.Targets.closing
      apply hne
      clear h1 hkb
      induction k generalizing F with
      | nil =>
        cases F with
        | nil => rfl
        | cons c F =>
          simp only [List.nil_append, List.cons_append, List.cons.injEq] at e
          exact absurd (by simp [e.1]) hF.2
      | cons c k ih =>
        cases F with
        | nil =>
          simp only [List.nil_append, List.cons_append, List.cons.injEq] at e
          exact absurd (by simp [e.1.symm]) hk.2
        | cons c' F =>
          simp only [List.cons_append, List.cons.injEq] at e
          simp only [List.mem_cons, not_or] at hk hF
          rw [e.1, ih ⟨hk.1.2, hk.2.2⟩ ⟨hF.1.2, hF.2.2⟩ (fun h => hne (by rw [e.1, h])) e.2]
  · intro a' ha' hsuf hp
    obtain ⟨z, e⟩ := isPrefixOf_iff.1 hp
    by_contra hlt
    rcases List.append_eq_append_iff.1 e.symm with ⟨u, e1, e2⟩ | ⟨u, e1, e2⟩
    · exact hlt (by rw [e1]; simp)
    · cases a' with
      | nil => exact ha' rfl
      | cons c a' =>
        rw [List.cons_append, List.cons.injEq] at e1
        cases u with
        | nil => exact hlt (by rw [e1.2]; simp)
        | cons c' u =>
          rw [List.cons_append, List.cons.injEq] at e2
          rw [← e2.1] at e1
          exact hkb (by rw [e1.2]; simp)

theorem dateFormat_place {a F : Str} (hF : '{' ∉ F ∧ '}' ∉ F) (hn : F ∉ dateNames) (d : DateTime) :
    dateFormat (a ++ '{' :: (F ++ ['}'])) d = dateFormat a d ++ '{' :: (F ++ ['}']) := by
  simp only [dateNames, List.mem_cons, List.not_mem_nil, or_false, not_or] at hn
  obtain ⟨n1, n2, n3, n4, n5, n6⟩ := hn
  unfold dateFormat
  have r : ∀ (k new a : Str), '{' ∉ k ∧ '}' ∉ k → F ≠ k → replace ('{' :: (k ++ ['}'])) new (a ++ '{' :: (F ++ ['}']))
      = replace ('{' :: (k ++ ['}'])) new a ++ '{' :: (F ++ ['}']) := fun k new a hk h => replace_place hk hF (Ne.symm h)
  have e1 := r "yyyy".toList (natStr d.year) a (by decide) n1
  simp only
  rw [show "{yyyy}".toList = '{' :: ("yyyy".toList ++ ['}']) from rfl, show "{mm}".toList = '{' :: ("mm".toList ++ ['}']) from rfl,
    show "{dd}".toList = '{' :: ("dd".toList ++ ['}']) from rfl, show "{HH}".toList = '{' :: ("HH".toList ++ ['}']) from rfl,
    show "{MM}".toList = '{' :: ("MM".toList ++ ['}']) from rfl, show "{SS}".toList = '{' :: ("SS".toList ++ ['}']) from rfl,
    r _ _ _ (by decide) n1, r _ _ _ (by decide) n2, r _ _ _ (by decide) n3, r _ _ _ (by decide) n4, r _ _ _ (by decide) n5,
    r _ _ _ (by decide) n6]

/-! ## The folders -/

/-- The folders for a value of a field. -/
def fieldFolders (F v : Str) : List Str := ["by_".toList ++ F, F ++ '=' :: v]

/-- The name of a field by which data can be partitioned and filtered: letters, digits and spaces, not the name
of a part of the date, and not one that looks like the folder for records that are not valid. -/
structure FieldName (F : Str) : Prop where
  safe : Safe F
  other : F ∉ dateNames
  clean : contains "BACKOUT".toList F = false
  line : '\n' ∉ F

theorem safe_not {s : Str} (h : Safe s) {c : Char} (hc : c ∉ Text.validCharacters) : c ∉ s := fun hm => hc (h c hm)

theorem sanitized_safe (s : Str) : Safe (sanitize s) := by
  intro c hc
  unfold sanitize at hc
  simpa using (List.mem_filter.1 hc).2

theorem by_not {F : Str} (hF : Safe F) {c : Char} (h1 : c ∉ "by_".toList) (h2 : c ∉ Text.validCharacters) :
    c ∉ "by_".toList ++ F := by
  rw [List.mem_append, not_or]; exact ⟨h1, safe_not hF h2⟩

theorem seg_not {F v : Str} (hF : Safe F) (hv : Safe v) {c : Char} (h1 : c ≠ '=') (h2 : c ∉ Text.validCharacters) :
    c ∉ F ++ '=' :: v := by
  rw [List.mem_append, List.mem_cons, not_or, not_or]; exact ⟨safe_not hF h2, h1, safe_not hv h2⟩

theorem field_comp {F v : Str} (hF : Safe F) (hv : Safe v) : ∀ c ∈ fieldFolders F v, Comp c := by
  intro c hc
  simp only [fieldFolders, List.mem_cons, List.not_mem_nil, or_false] at hc
  rcases hc with rfl | rfl
  · exact ⟨by simp, by intro e; exact absurd (congrArg List.head? e) (by simp), by_not hF (by decide) (by decide)⟩
  · refine ⟨by simp, ?_, seg_not hF hv (by decide) (by decide)⟩
    intro e
    have : '=' ∈ ['.'] := by rw [← e]; simp
    exact absurd this (by decide)

theorem field_path {cs : List Str} (hne : cs ≠ []) (F v : Str) :
    join ['/'] (cs ++ fieldFolders F v) = join ['/'] cs ++ '/' :: (("by_".toList ++ F) ++ '/' :: (F ++ '=' :: v)) := by
  have e : cs ++ fieldFolders F v = (cs ++ ["by_".toList ++ F]) ++ [F ++ '=' :: v] := by simp [fieldFolders]
  rw [e, join_snoc _ _ (by simp), join_snoc _ _ hne]
  simp

theorem field_contains {m base F v name : Str} (hm : m ≠ []) (hs : '/' ∉ m) (h1 : contains m base = false)
    (h2 : contains m ("by_".toList ++ F) = false) (h3 : contains m (F ++ '=' :: v) = false)
    (h4 : contains m name = false) :
    contains m (base ++ '/' :: (("by_".toList ++ F) ++ '/' :: (F ++ '=' :: v)) ++ '/' :: name) = false := by
  rw [← Bool.not_eq_true, contains_slash hm hs, contains_slash hm hs, contains_slash hm hs, h1, h2, h3, h4]
  simp

theorem by_backout {F : Str} (h : contains "BACKOUT".toList F = false) : contains "BACKOUT".toList ("by_".toList ++ F) = false := by
  rw [show "by_".toList ++ F = 'b' :: 'y' :: '_' :: F from rfl]
  simp only [contains, h, Bool.or_false]
  simp [List.isPrefixOf]

/-- The writer's folders are those of the reader and then a folder for each value of a field; a reader with a
partition filter reads those of one value. -/
theorem layout_field {w : Job} {ls : List (List Piece)} (hw : Daily w ls)
    (hby : ∀ t, Day t → contains "by_".toList (join ['/'] (folderOf ls t)) = false) {F : Str} (hF : FieldName F)
    {vals : List Str} (hvals : ∀ v ∈ vals, Safe v) (flt : PartitionFilter) (hfield : flt.field = F)
    (hop : flt.op = "=".toList ∨ flt.op = "==".toList) (hv : sanitize flt.value ∈ vals)
    (hvc : contains "BACKOUT".toList (sanitize flt.value) = false) :
    Layout w ls 2 (some flt) (vals.map (fieldFolders F)) [fieldFolders F (sanitize flt.value)] where
  folders t ht sb hsb := by
    obtain ⟨v, hv, rfl⟩ := List.mem_map.1 hsb
    refine ⟨?_, by simp [fieldFolders], ?_⟩
    · intro c hc
      rcases List.mem_append.1 hc with hc | hc
      · exact base_comp hw ht c hc
      · exact field_comp hF.safe (hvals v hv) c hc
    · intro c hc
      rw [List.getLast?_append] at hc
      simp only [fieldFolders, List.getLast?_cons_cons, List.getLast?_singleton, Option.some_or, Option.mem_def,
        Option.some.injEq] at hc
      subst hc
      exact seg_not hF.safe (hvals v hv) (by decide) (by decide)
  brace t ht sb hsb := by
    obtain ⟨v, hv, rfl⟩ := List.mem_map.1 hsb
    rw [place, field_path (base_ne hw ht)]
    have h1 := base_brace hw ht
    have h2 : '{' ∉ F ++ '=' :: v := seg_not hF.safe (hvals v hv) (by decide) (by decide)
    have h3 : '{' ∉ "by_".toList ++ F := by_not hF.safe (by decide) (by decide)
    rw [List.mem_append, List.mem_cons, List.mem_append, List.mem_cons]
    simp only [not_or]
    exact ⟨h1, by decide, h3, by decide, h2⟩
  len sb hsb := by
    obtain ⟨v, hv, rfl⟩ := List.mem_map.1 hsb
    rfl
  among sb hsb := by
    rw [List.mem_singleton.1 hsb]
    exact List.mem_map_of_mem hv
  order := by simp
  clean t ht sb hsb i hi := by
    rw [List.mem_singleton.1 hsb]
    have hb := hw.plain t ht
    rw [base_at] at hb
    obtain ⟨n1, n2, n3⟩ := name_plain (format := w.format) hi
    rw [place, field_path (base_ne hw ht)]
    exact field_contains (by decide) (by decide) hb.backout (by_backout hF.clean)
      (contains_eq (by decide) (by decide) hF.clean hvc) (contains_of_not_mem (c := 'B') (by decide) n3)
  pick t ht zs hzs := by
    have hne := base_ne hw ht
    have hb := hw.plain t ht
    rw [base_at] at hb
    -- the names as segments
    let seg : List Str × Str → Seg := fun z => ⟨join ['/'] (folderOf ls t), "by_".toList ++ F, z.1.getLast?.getD [],
      z.2 ++ extension w.format⟩
    have hseg : ∀ z ∈ zs, ∃ v ∈ vals, z.1 = fieldFolders F v ∧ (seg z).segment = F ++ '=' :: v ∧
        place ls t z.1 ++ '/' :: (z.2 ++ extension w.format) = (seg z).path := by
      intro z hz
      obtain ⟨v, hv, e⟩ := List.mem_map.1 (hzs z hz).1
      refine ⟨v, hv, e.symm, ?_, ?_⟩
      · simp only [seg, ← e, fieldFolders]
        rfl
      · rw [place, ← e, field_path hne]
        simp only [seg, Seg.path, ← e, fieldFolders]
        simp
    have hmap : zs.map (fun z => place ls t z.1 ++ '/' :: (z.2 ++ extension w.format)) = (zs.map seg).map Seg.path := by
      rw [List.map_map]
      apply List.map_congr_left
      intro z hz
      obtain ⟨v, -, -, -, e⟩ := hseg z hz
      exact e
    have hok : ∀ b ∈ zs.map seg, b.OK ∧ contains "BACKOUT".toList b.path = false ∧
        contains "as_at_".toList b.path = false := by
      intro b hbm
      obtain ⟨z, hz, rfl⟩ := List.mem_map.1 hbm
      obtain ⟨h1, h2, h3⟩ := hzs z hz
      obtain ⟨v, hv, e1, e2, e3⟩ := hseg z hz
      obtain ⟨n1, n2, n3⟩ := name_plain (format := w.format) h2
      have hu : '_' ∉ F ++ '=' :: v := seg_not hF.safe (hvals v hv) (by decide) (by decide)
      refine ⟨⟨List.prefix_append _ _, ?_, by_not hF.safe (by decide) (by decide), ?_, hby t ht, ?_, ?_⟩, ?_, ?_⟩
      · show contains "by_".toList ('y' :: '_' :: F) = false
        have : contains "by_".toList F = false := contains_of_not_mem (c := '_') (by decide) (safe_not hF.safe (by decide))
        simp only [contains, this, Bool.or_false]
        simp [List.isPrefixOf]
      · rw [e2]; exact seg_not hF.safe (hvals v hv) (by decide) (by decide)
      · rw [e2]; exact contains_of_not_mem (c := '_') (by decide) hu
      · exact contains_of_not_mem (c := '_') (by decide) n2
      · rw [← e3]; exact h3
      · rw [← e3, place, e1, field_path hne]
        refine field_contains (by decide) (by decide) hb.as_at ?_ (contains_of_not_mem (c := '_') (by decide) hu)
          (contains_of_not_mem (c := '_') (by decide) n2)
        rw [show "by_".toList ++ F = 'b' :: 'y' :: '_' :: F from rfl]
        have : contains "as_at_".toList F = false := contains_of_not_mem (c := '_') (by decide) (safe_not hF.safe (by decide))
        simp only [contains, this, Bool.or_false]
        simp [List.isPrefixOf]
    -- the filter, with its value made safe
    have hflt : ∀ l : List Str, cycleBlobs (some flt) l = cycleBlobs (some ⟨flt.field, flt.op, sanitize flt.value⟩) l := by
      intro l
      have : sanitize (sanitize flt.value) = sanitize flt.value := sanitize_safe (sanitized_safe _)
      unfold cycleBlobs applyFilter
      simp only [this]
    have hkeep : (zs.filter fun z => decide (z.1 ∈ [fieldFolders F (sanitize flt.value)])).map
          (fun z => place ls t z.1 ++ '/' :: (z.2 ++ extension w.format))
        = ((zs.map seg).filter (fun b => wanted ⟨flt.field, flt.op, sanitize flt.value⟩ b)).map Seg.path := by
      rw [List.filter_map, List.map_map]
      have hfe : zs.filter (fun z => decide (z.1 ∈ [fieldFolders F (sanitize flt.value)]))
          = zs.filter ((fun b => decide (wanted ⟨flt.field, flt.op, sanitize flt.value⟩ b)) ∘ seg) := by
        apply List.filter_congr
        intro z hz
        obtain ⟨v, hv, e1, e2, e3⟩ := hseg z hz
        simp only [Function.comp, wanted, hfield]
        rw [decide_eq_decide, e2, e1]
        simp [fieldFolders, seg]
      rw [← hfe]
      apply List.map_congr_left
      intro z hz
      obtain ⟨v, hv, e1, e2, e3⟩ := hseg z (List.mem_filter.1 hz).1
      exact e3
    rw [hkeep, hmap, hflt]
    cases hz : zs with
    | nil =>
      refine ⟨[], ?_, by simp⟩
      unfold cycleBlobs applyFilter
      simp only [List.map_nil, List.filter_nil, partitionings, List.filterMap_nil]
      rw [if_neg (by
        rintro ⟨h1, h2⟩
        rcases hop with e | e
        · exact h1 e
        · exact h2 e)]
      rfl
    | cons z0 zs0 =>
      rw [← hz]
      exact ⟨_, C69_unframed (zs.map seg) (fun b h => (hok b h).1) (fun b h => (hok b h).2.1) (fun b h => (hok b h).2.2)
        ⟨flt.field, flt.op, sanitize flt.value⟩ hop (by rw [hfield]; exact hF.safe) (sanitized_safe _)
        ⟨seg z0, List.mem_map_of_mem (by simp [hz]), by rw [hfield]⟩, List.Perm.refl _⟩

end Mabel.StreamStorage
