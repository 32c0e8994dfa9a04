import Verif.Lemmas.FieldLayout

/-!
# What is read of what a stream writer that partitions by a field has stored
-/

namespace Mabel.StreamStorage
open Mabel.Py Mabel.Paths Mabel.Naming Mabel.Spec Mabel.Listing Mabel.EndToEnd Mabel.Dates Mabel.History
open Mabel.Blobs (Lib Faithful Torn delivered Item readBlob Names formatOf BlobName)
open Mabel.WriterInit (Folders Nested)
open Mabel.Stream (Conf Machine Reach Pool run)
open Mabel.Stream.Spec (routed)
open Mabel.Text (sanitize)
open Mabel.Disk hiding Bytes
variable {ρ β : Type}

/-- The folders of a place for a value, up to the value. -/
def fieldPieces (F : Str) : List (List Piece) := [[.lit ("by_".toList ++ F)], [.lit (F ++ ['='])]]

/-- The targets of a record, of a path with one place. -/
theorem targets_place {str : β → Str} {head F suf : Str} {field : Str → Targets.Field β} {names : List Str}
    {combos : List (List β)} (hh : '{' ∉ head) (hs : '{' ∉ suf) (hF : '{' ∉ F ∧ '}' ∉ F ∧ '\n' ∉ F)
    (h : Targets.Enumerates (head ++ '{' :: (F ++ '}' :: suf)) field names combos) :
    ∃ xs : List β, xs.Nodup ∧ (∀ x, x ∈ xs ↔ x ∈ (field F).values) ∧
      Targets.targets str (head ++ '{' :: (F ++ '}' :: suf)) names combos
        = xs.map fun x => head ++ (sanitize (str x) ++ suf) := by
  have hp : Targets.placeholders (head ++ '{' :: (F ++ '}' :: suf)) = [F] := by
    unfold Targets.placeholders
    rw [List.length_append, Targets.placeholdersAux_lit _ _ hh]
    have := Targets.placeholdersAux_places [(F, suf)] (by simpa using hs) (by simpa using hF.2)
      ('{' :: (F ++ '}' :: suf)).length (by simp)
    simpa using this
  have hn : names = [F] := by
    have hm := h.namesMem
    rw [hp] at hm
    have hnd := h.namesNodup
    cases names with
    | nil => exact absurd ((hm F).2 (by simp)) (by simp)
    | cons a as =>
      have ha : a = F := by simpa using (hm a).1 (by simp)
      cases as with
      | nil => rw [ha]
      | cons b bs =>
        have hb : b = F := by simpa using (hm b).1 (by simp)
        simp [ha, hb] at hnd
  subst hn
  have hcm := h.combosMem
  have hprod : ∀ vs : List β, vs ∈ Targets.product ([F].map fun n => (field n).values) ↔ ∃ x ∈ (field F).values, vs = [x] := by
    intro vs
    simp only [List.map_cons, List.map_nil, Targets.product, List.mem_flatMap, List.mem_singleton]
  have hsub : ∀ (x : β), Targets.substitute str (head ++ '{' :: (F ++ '}' :: suf)) ([F].zip [x])
      = head ++ (sanitize (str x) ++ suf) := by
    intro x
    show replace ('{' :: F ++ ['}']) (sanitize (str x)) (head ++ '{' :: (F ++ '}' :: suf)) = _
    unfold replace
    rw [List.cons_append, Targets.replaceGo_lit _ _ _ _ hh, ← List.cons_append, Targets.replaceGo_place_eq]
    have := Targets.replaceGo_lit (F ++ ['}']) (sanitize (str x)) suf [] hs
    rw [List.append_nil] at this
    rw [List.cons_append, this]
    simp [replaceGo]
  have key : ∀ cs : List (List β), cs.Nodup → (∀ vs ∈ cs, ∃ x ∈ (field F).values, vs = [x]) →
      ∃ xs : List β, xs.Nodup ∧ cs = xs.map (fun x => [x]) := by
    intro cs hnd hc
    induction cs with
    | nil => exact ⟨[], by simp, rfl⟩
    | cons c cs ih =>
      rw [List.nodup_cons] at hnd
      obtain ⟨xs, h1, h2⟩ := ih hnd.2 (fun vs hv => hc vs (by simp [hv]))
      obtain ⟨x, -, rfl⟩ := hc c (by simp)
      refine ⟨x :: xs, ?_, by simp [h2]⟩
      rw [List.nodup_cons]
      refine ⟨fun hx => hnd.1 ?_, h1⟩
      rw [h2]
      exact List.mem_map.2 ⟨x, hx, rfl⟩
  obtain ⟨xs, h1, h2⟩ := key combos h.combosNodup (fun vs hv => (hprod vs).1 ((hcm vs).1 hv))
  refine ⟨xs, h1, ?_, ?_⟩
  · intro x
    have : x ∈ xs ↔ [x] ∈ combos := by rw [h2]; simp
    rw [this, hcm, hprod]
    simp
  · unfold Targets.targets
    rw [if_neg (by simp), h2, List.map_map]
    apply List.map_congr_left
    intro x _
    exact hsub x

section
variable {w : Job} {ls : List (List Piece)} {S : DateTime → Prop} {s : Setup} {valid : ρ → Bool} {str : β → Str}
  {field : ρ → Str → Targets.Field β} {F : Str}

/-- What follows the value in a target. -/
def suffixOf (valid : ρ → Bool) (r : ρ) : Str := if valid r then [] else "/BACKOUT/".toList

theorem field_head {cs : List Str} (hne : cs ≠ []) (F v : Str) :
    join ['/'] (cs ++ ["by_".toList ++ F, F ++ ['=']]) ++ v = join ['/'] (cs ++ fieldFolders F v) := by
  have e : cs ++ ["by_".toList ++ F, F ++ ['=']] = (cs ++ ["by_".toList ++ F]) ++ [F ++ ['=']] := by simp
  rw [field_path hne, e, join_snoc _ _ (by simp), join_snoc _ _ hne]
  simp

theorem field_path_for (hw : Daily w ls) (hF : FieldName F)
    (hs : s.template = join ['/'] ((ls ++ fieldPieces F).map template) ++ '{' :: (F ++ ['}']))
    {now : DateTime} (hu : (s.date.getD now).valid = true) (r : ρ) :
    pathFor s valid now r = join ['/'] (folderOf ls (midnight (s.date.getD now)) ++ ["by_".toList ++ F, F ++ ['=']]) ++
      '{' :: (F ++ '}' :: suffixOf valid r) := by
  have hpl : Plain (pathPieces (ls ++ fieldPieces F)) := by
    apply plain_path
    intro l hl
    rcases List.mem_append.1 hl with hl | hl
    · exact ((hw.ok _ hu).folders l hl).plain
    · intro t ht
      simp only [fieldPieces, List.mem_cons, List.not_mem_nil, or_false] at hl
      rcases hl with rfl | rfl
      · rw [List.mem_singleton, Piece.lit.injEq] at ht
        subst ht
        exact by_not hF.safe (by decide) (by decide)
      · rw [List.mem_singleton, Piece.lit.injEq] at ht
        subst ht
        exact seg_not hF.safe (v := []) (by simp [Safe]) (by decide) (by decide)
  have hfolder : (ls ++ fieldPieces F).map (filled (s.date.getD now))
      = folderOf ls (midnight (s.date.getD now)) ++ ["by_".toList ++ F, F ++ ['=']] := by
    rw [← hw.day _ hu, List.map_append]
    simp [folderOf, fieldPieces, filled]
  have hb : '{' ∉ F ∧ '}' ∉ F := ⟨safe_not hF.safe (by decide), safe_not hF.safe (by decide)⟩
  unfold pathFor Targets.identity suffixOf
  rw [hs, ← template_path, dateFormat_place hb hF.other, C52_template _ hpl _ hu, filled_path, hfolder]
  simp only
  split <;> simp

/-- Where an append goes. -/
theorem field_op (hw : Daily w ls) (hF : FieldName F) (hS : ∀ t, S t → Day t)
    (hs : s.template = join ['/'] ((ls ++ fieldPieces F).map template) ++ '{' :: (F ++ ['}']))
    {now : DateTime} {r : ρ} {names : List Str} {combos : List (List β)}
    (h : CallOK s valid field S (.append now r names combos)) :
    ∃ xs : List β, xs.Nodup ∧ (∀ x, x ∈ xs ↔ x ∈ (field r F).values) ∧
      op s valid str (.append now r names combos) = .append r (xs.map fun x =>
        place ls (midnight (s.date.getD now)) (fieldFolders F (sanitize (str x))) ++ suffixOf valid r) := by
  obtain ⟨hu, hSu, he⟩ := h
  have hday := hS _ hSu
  have hb : '{' ∉ F ∧ '}' ∉ F := ⟨safe_not hF.safe (by decide), safe_not hF.safe (by decide)⟩
  rw [field_path_for hw hF hs hu] at he
  have hhead : '{' ∉ join ['/'] (folderOf ls (midnight (s.date.getD now)) ++ ["by_".toList ++ F, F ++ ['=']]) := by
    have := field_head (base_ne hw hday) F []
    rw [List.append_nil] at this
    rw [this, field_path (base_ne hw hday)]
    have h1 := base_brace hw hday
    have h2 : '{' ∉ F ++ ['='] := seg_not hF.safe (v := []) (by simp [Safe]) (by decide) (by decide)
    have h3 : '{' ∉ "by_".toList ++ F := by_not hF.safe (by decide) (by decide)
    rw [List.mem_append, List.mem_cons, List.mem_append, List.mem_cons]
    simp only [not_or]
    exact ⟨h1, by decide, h3, by decide, h2⟩
  obtain ⟨xs, x1, x2, x3⟩ := targets_place (str := str) hhead (by unfold suffixOf; split <;> decide) ⟨hb.1, hb.2, hF.line⟩ he
  refine ⟨xs, x1, x2, ?_⟩
  simp only [op]
  rw [field_path_for hw hF hs hu, x3]
  congr 1
  apply List.map_congr_left
  intro x _
  rw [place, ← field_head (base_ne hw hday)]
  simp

/-- The folders for the values of the records, and for the value asked for. -/
def fieldValues (str : β → Str) (field : ρ → Str → Targets.Field β) (F x : Str) (records : List ρ) : List Str :=
  sanitize x :: records.flatMap fun r => (field r F).values.map fun v => sanitize (str v)

theorem field_values_safe {x : Str} {records : List ρ} : ∀ v ∈ fieldValues str field F x records, Safe v := by
  intro v hv
  rcases List.mem_cons.1 hv with rfl | hv
  · exact sanitized_safe _
  · obtain ⟨r, -, hv⟩ := List.mem_flatMap.1 hv
    obtain ⟨y, -, rfl⟩ := List.mem_map.1 hv
    exact sanitized_safe _

theorem field_value_mem {x : Str} {records : List ρ} {r : ρ} (hr : r ∈ records) {y : β} (hy : y ∈ (field r F).values) :
    fieldFolders F (sanitize (str y)) ∈ (fieldValues str field F x records).map (fieldFolders F) :=
  List.mem_map_of_mem (List.mem_cons_of_mem _ (List.mem_flatMap.2 ⟨r, hr, List.mem_map.2 ⟨y, hy, rfl⟩⟩))

theorem fieldFolders_inj {F v v' : Str} : fieldFolders F v = fieldFolders F v' ↔ v = v' := by
  simp [fieldFolders]

theorem filter_one (xs : List β) (hnd : xs.Nodup) (p : β → Bool) (hone : ∀ x ∈ xs, ∀ y ∈ xs, p x → p y → x = y) :
    (xs.filter p).length = if xs.any p then 1 else 0 := by
  induction xs with
  | nil => rfl
  | cons x xs ih =>
    rw [List.nodup_cons] at hnd
    have ih := ih hnd.2 (fun a ha b hb => hone a (by simp [ha]) b (by simp [hb]))
    by_cases hp : p x = true
    · have : xs.filter p = [] := by
        rw [List.filter_eq_nil_iff]
        intro y hy hpy
        have := hone x (by simp) y (by simp [hy]) hp hpy
        exact hnd.1 (this ▸ hy)
      simp [hp, this]
    · simp [hp, ih]

/-- What is routed to the folders of a value. -/
theorem field_routed (hw : Daily w ls) (hF : FieldName F) {x : Str} {flt : Option PartitionFilter} {records : List ρ}
    {chosen : List (List Str)} (hy : Layout w ls 2 flt ((fieldValues str field F x records).map (fieldFolders F)) chosen)
    (hs : s.template = join ['/'] ((ls ++ fieldPieces F).map template) ++ '{' :: (F ++ ['}']))
    (hS : ∀ t, S t → Day t) (hone : OneValue str field F x records) {t : DateTime} (ht : Day t)
    (hist : List (Nat × Call ρ β)) (hok : ∀ y ∈ hist, CallOK s valid field S y.2)
    (hrec : ∀ t now r names combos, (t, Call.append now r names combos) ∈ hist → r ∈ records) :
    routed (hist.map (fun y => op s valid str y.2)) (place ls t (fieldFolders F (sanitize x)))
      = appended s.date (fun r => valid r && has str field F x r) (fun u => midnight u = t) hist := by
  induction hist with
  | nil => rfl
  | cons z hist ih =>
    obtain ⟨t0, a⟩ := z
    have ih := ih (fun x hx => hok x (by simp [hx])) (fun t now r names combos h => hrec t now r names combos (by simp [h]))
    unfold routed appended at *
    rw [List.map_cons, List.flatMap_cons, List.filterMap_cons, ih]
    cases a with
    | append now r names combos =>
      have h := hok (t0, .append now r names combos) (by simp)
      have hr : r ∈ records := hrec t0 now r names combos (by simp)
      obtain ⟨hu, hSu, -⟩ := id h
      obtain ⟨xs, x1, x2, x3⟩ := field_op (str := str) hw hF hS hs h
      simp only
      rw [x3]
      simp only
      have hmemx : fieldFolders F (sanitize x) ∈ (fieldValues str field F x records).map (fieldFolders F) :=
        List.mem_map_of_mem (by simp [fieldValues])
      have htest : ∀ y ∈ xs, ((place ls (midnight (s.date.getD now)) (fieldFolders F (sanitize (str y))) ++ suffixOf valid r)
          == place ls t (fieldFolders F (sanitize x)))
          = (valid r && decide (midnight (s.date.getD now) = t) && (sanitize (str y) == sanitize x)) := by
        intro y hyx
        rw [Bool.eq_iff_iff]
        simp only [beq_iff_eq, Bool.and_eq_true, decide_eq_true_eq]
        have hmy := field_value_mem (str := str) (x := x) hr ((x2 y).1 hyx)
        unfold suffixOf
        cases hv : valid r with
        | true =>
          simp only [if_true, List.append_nil, true_and]
          rw [place_inj hw hy (hS _ hSu) ht hmy hmemx, fieldFolders_inj]
        | false =>
          simp only [Bool.false_eq_true, if_false, false_and, iff_false]
          exact backout_place hy (hS _ hSu) ht hmy hmemx
      have hfil : (xs.map fun y => place ls (midnight (s.date.getD now)) (fieldFolders F (sanitize (str y))) ++ suffixOf valid r).filter
            (fun y => y == place ls t (fieldFolders F (sanitize x)))
          = (xs.filter (fun y => valid r && decide (midnight (s.date.getD now) = t) && (sanitize (str y) == sanitize x))).map
              (fun y => place ls (midnight (s.date.getD now)) (fieldFolders F (sanitize (str y))) ++ suffixOf valid r) := by
        rw [List.filter_map]
        congr 1
        apply List.filter_congr
        intro y hyx
        exact htest y hyx
      have hlen := filter_one xs x1 (fun y => valid r && decide (midnight (s.date.getD now) = t) && (sanitize (str y) == sanitize x))
        (by
          intro a ha b hb pa pb
          simp only [Bool.and_eq_true, beq_iff_eq] at pa pb
          exact hone r hr a ((x2 a).1 ha) b ((x2 b).1 hb) pa.2 pb.2)
      have hany : xs.any (fun y => sanitize (str y) == sanitize x) = has str field F x r := by
        unfold has
        rw [Bool.eq_iff_iff, List.any_eq_true, List.any_eq_true]
        constructor
        · rintro ⟨y, h1, h2⟩; exact ⟨y, (x2 y).1 h1, h2⟩
        · rintro ⟨y, h1, h2⟩; exact ⟨y, (x2 y).2 h1, h2⟩
      rw [hfil, List.map_map]
      by_cases hc : (valid r && has str field F x r) = true ∧ midnight (s.date.getD now) = t
      · rw [if_pos hc]
        obtain ⟨hc1, hc2⟩ := hc
        rw [Bool.and_eq_true] at hc1
        simp only [hc1.1, hc2, decide_true, Bool.and_true, Bool.true_and] at hlen ⊢
        rw [hany, hc1.2, if_pos rfl] at hlen
        obtain ⟨y, hy1⟩ := List.length_eq_one_iff.1 hlen
        rw [hy1]
        rfl
      · rw [if_neg hc]
        have : (xs.filter (fun y => valid r && decide (midnight (s.date.getD now) = t) && (sanitize (str y) == sanitize x))) = [] := by
          rw [List.filter_eq_nil_iff]
          intro y hy1 hy2
          rw [Bool.and_eq_true, Bool.and_eq_true, decide_eq_true_eq] at hy2
          refine hc ⟨?_, hy2.1.2⟩
          rw [Bool.and_eq_true]
          refine ⟨hy2.1.1, ?_⟩
          rw [← hany, List.any_eq_true]
          exact ⟨y, hy1, hy2.2⟩
        rw [this]
        rfl
    | attend => rfl
    | finalize => rfl

/-- Appends go to the folders of the values. -/
theorem field_goes (hw : Daily w ls) (hF : FieldName F) {x : Str} {records : List ρ}
    (hs : s.template = join ['/'] ((ls ++ fieldPieces F).map template) ++ '{' :: (F ++ ['}']))
    (hS : ∀ t, S t → Day t) {a : Call ρ β} (hok : CallOK s valid field S a)
    (hrec : ∀ now r names combos, a = .append now r names combos → r ∈ records)
    {r : ρ} {ts : List Str} (h : op s valid str a = .append r ts) :
    ∀ target ∈ ts, Goes ls ((fieldValues str field F x records).map (fieldFolders F)) S target := by
  cases a with
  | append now r' names combos =>
    obtain ⟨xs, x1, x2, x3⟩ := field_op (str := str) hw hF hS hs hok
    rw [x3] at h
    cases h
    intro target ht
    obtain ⟨y, hy, rfl⟩ := List.mem_map.1 ht
    refine ⟨_, hok.2.1, _, field_value_mem (hrec now _ names combos rfl) ((x2 y).1 hy), ?_⟩
    unfold suffixOf
    split
    · exact Or.inl (List.append_nil _)
    · exact Or.inr rfl
  | attend => cases h
  | finalize => cases h

end

end Mabel.StreamStorage
