import Verif.Lemmas.WriterInit
import Verif.Props.Naming
import Verif.Props.Listing

/-!
# Properties of constructing a writer: C83
-/

namespace Mabel.WriterInit
open Mabel.Py Mabel.Paths Mabel.Naming Mabel.Listing Mabel.Spec

/-! ## The specification -/

/-- The date that is asked for. -/
inductive Dated (now : DateTime) : DateArg → DateTime → Prop
  | missing : Dated now .missing now
  | date (d : DateTime) : Dated now (.date d) d
  | text (s : Str) (d : DateTime) (h : Dates.parseIso s = some d) : Dated now (.text s) d

/-- The dataset and the partitions that are asked for: by the parameters, or one of the old ways. -/
inductive Asks (a : Args) : Str → List Str → Prop
  | partitions (hn : contains "{date".toList a.dataset = false)
      (hr : (a.rawPath.getD []).map Char.toUpper ≠ "TRUE".toList) : Asks a a.dataset (a.partitions.getD [])
  | rawPath (hn : contains "{date".toList a.dataset = false)
      (hr : (a.rawPath.getD []).map Char.toUpper = "TRUE".toList) : Asks a a.dataset []
  | datefolders (dataset : Str) (h : '{' ∉ dataset) (hd : a.dataset = dataset ++ "/{datefolders}".toList) :
      Asks a dataset ["year_{yyyy}/month_{mm}/day_{dd}".toList]
  | datefoldersShort (dataset : Str) (h : '{' ∉ dataset)
      (hd : a.dataset = dataset ++ "/{datefolders_short}".toList) : Asks a dataset ["{yyyy}/{mm}/{dd}".toList]

/-- The arguments are acceptable. -/
structure Good (a : Args) : Prop where
  schema : a.schema ≠ .missing
  parquet : a.format = "parquet".toList → a.schema = .given
  format : a.format ∈ ["jsonl".toList, "zstd".toList, "parquet".toList, "text".toList, "flat".toList]

/-- The dataset and the partitions are at least two folders, the last of them without a dot. -/
structure Nested (ls : List (List Piece)) : Prop where
  two : 2 ≤ ls.length
  dot : ∀ l ∈ ls.getLast?, '.' ∉ template l

/-! ## Where the blobs go -/

theorem folders_template {ls : List (List Piece)} (hf : ∀ l ∈ ls, Folder l) (hn : Nested ls) :
    Folders (ls.map template) := by
  refine ⟨?_, by simpa using hn.two, ?_⟩
  · intro c hc
    obtain ⟨l, hl, rfl⟩ := List.mem_map.1 hc
    exact folder_template (hf l hl)
  · intro c hc
    rw [List.getLast?_map] at hc
    obtain ⟨l, hl, rfl⟩ := Option.map_eq_some_iff.1 hc
    exact hn.dot l hl

theorem folders_filled {ls : List (List Piece)} (hf : ∀ l ∈ ls, Folder l) (hn : Nested ls) {d : DateTime}
    (hd : d.valid = true) : Folders (ls.map (filled d)) := by
  refine ⟨?_, by simpa using hn.two, ?_⟩
  · intro c hc
    obtain ⟨l, hl, rfl⟩ := List.mem_map.1 hc
    exact folder_filled (hf l hl) hd
  · intro c hc
    rw [List.getLast?_map] at hc
    obtain ⟨l, hl, rfl⟩ := Option.map_eq_some_iff.1 hc
    exact filled_dot (hn.dot l hl) hd

theorem contains_brace {tok s r : Str} (hs : '{' ∉ s) : contains ('{' :: tok) (s ++ r) = contains ('{' :: tok) r := by
  induction s with
  | nil => rfl
  | cons c s ih =>
    simp only [List.mem_cons, not_or] at hs
    rw [List.cons_append, contains, ih hs.2]
    have : ('{' :: tok).isPrefixOf (c :: (s ++ r)) = false := by
      simp only [List.isPrefixOf, Bool.and_eq_false_iff, beq_eq_false_iff_ne]
      exact Or.inl hs.1
    rw [this, Bool.false_or]

theorem replace_suffix {tok s : Str} (hs : '{' ∉ s) : replace ('{' :: tok) [] (s ++ '{' :: tok) = s := by
  unfold replace
  have r1 := replaceGo_lit (tok := tok) (new := []) s ('{' :: tok) hs
  have r2 := replaceGo_tok (tok := tok) (new := []) []
  rw [r1]
  simp only [List.append_nil, List.nil_append] at r2
  rw [r2]
  simp [replaceGo]

theorem dated_eq {now : DateTime} {a : DateArg} {d : DateTime} (h : Dated now a d) :
    dateOr now (writerDate now a) = d := by
  cases h with
  | missing => rfl
  | date => rfl
  | text s d h => simp [writerDate, dateOr, h]

theorem dataset_head {ds : Str} {ps : List Str} {ls : List (List Piece)} (hf : ∀ l ∈ ls, Folder l)
    (hne : ls ≠ []) (hp : ds ++ ['/'] ++ join ['/'] ps = join ['/'] (ls.map template)) :
    ds ≠ [] ∧ ds.head? ≠ some '/' := by
  cases ls with
  | nil => exact absurd rfl hne
  | cons l ls =>
    have hh := head_join (l := ls.map template) (folder_template (hf l (by simp)))
    rw [List.map_cons] at hp
    rw [← hp] at hh
    cases ds with
    | nil => exact absurd rfl (hh '/' (by simp))
    | cons c ds =>
      refine ⟨by simp, ?_⟩
      intro e
      simp only [List.head?_cons, Option.some.injEq] at e
      exact hh c (by simp) e

/-- The folder that a writer's dataset is built from. -/
theorem asks_path {a : Args} {ds : Str} {ps : List Str} (h : Asks a ds ps) {ls : List (List Piece)}
    (hf : ∀ l ∈ ls, Folder l) (hn : Nested ls)
    (hp : (if ps = [] then ds else ds ++ ['/'] ++ join ['/'] ps) = join ['/'] (ls.map template)) :
    ∃ s, withPartitions (overrides a).1 (overrides a).2 = s ∧ s ≠ [] ∧ s.getLast? ≠ some '/' ∧
      Posix.parse s = ⟨[], ls.map template⟩ := by
  have hF := folders_template hf hn
  have hne : ls ≠ [] := by intro e; exact hF.ne (by rw [e]; rfl)
  have hpj := parse_join hF.ne hF.comp
  refine ⟨_, rfl, ?_⟩
  cases h with
  | partitions hc hr =>
    have e : withPartitions (overrides a).1 (overrides a).2 = join ['/'] (ls.map template) := by
      rw [← hp]
      simp only [overrides, hc, hr, if_false, Bool.false_eq_true, withPartitions]
      cases a.partitions with
      | none => rfl
      | some p => rfl
    rw [e]
    exact ⟨join_ne_nil hF, join_last hF, hpj⟩
  | rawPath hc hr =>
    have e : withPartitions (overrides a).1 (overrides a).2 = join ['/'] (ls.map template) := by
      rw [← hp]
      simp only [overrides, hc, hr, if_true, if_false, Bool.false_eq_true, withPartitions]
    rw [e]
    exact ⟨join_ne_nil hF, join_last hF, hpj⟩
  | datefolders _ hb hd =>
    have hb' : '{' ∉ ds ++ ['/'] := by
      simp only [List.mem_append, List.mem_singleton, not_or]; exact ⟨hb, by decide⟩
    have e0 : a.dataset = (ds ++ ['/']) ++ '{' :: "datefolders}".toList := by rw [hd]; simp
    have c1 : contains "{date".toList a.dataset = true := by
      have : "{date".toList = '{' :: "date".toList := rfl
      rw [this, e0, contains_brace hb']; decide
    have c2 : contains "{datefolders}".toList a.dataset = true := by
      have : "{datefolders}".toList = '{' :: "datefolders}".toList := rfl
      rw [this, e0, contains_brace hb']; decide
    have r : replace "{datefolders}".toList [] a.dataset = ds ++ ['/'] := by
      have : "{datefolders}".toList = '{' :: "datefolders}".toList := rfl
      rw [this, e0, replace_suffix hb']
    have c3 : contains "{datefolders_short}".toList (ds ++ ['/']) = false :=
      contains_of_not_mem (c := '{') (by decide) hb'
    have e : withPartitions (overrides a).1 (overrides a).2
        = ds ++ '/' :: '/' :: join ['/'] defaultPartitions := by
      simp only [overrides, c1, c2, r, c3, if_true, if_false, Bool.false_eq_true, withPartitions]
      rw [if_neg (by decide)]
      simp
    rw [if_neg (by decide)] at hp
    obtain ⟨h1, h2⟩ := dataset_head hf hne hp
    rw [e]
    refine ⟨by simp, ?_, ?_⟩
    · have : (ds ++ '/' :: '/' :: join ['/'] defaultPartitions).getLast? = some '}' := by
        rw [List.getLast?_append]; rfl
      rw [this]; decide
    · rw [parse_slashes h1 h2, ← hpj, ← hp]; simp [defaultPartitions]
  | datefoldersShort _ hb hd =>
    have hb' : '{' ∉ ds ++ ['/'] := by
      simp only [List.mem_append, List.mem_singleton, not_or]; exact ⟨hb, by decide⟩
    have e0 : a.dataset = (ds ++ ['/']) ++ '{' :: "datefolders_short}".toList := by rw [hd]; simp
    have c1 : contains "{date".toList a.dataset = true := by
      have : "{date".toList = '{' :: "date".toList := rfl
      rw [this, e0, contains_brace hb']; decide
    have c2 : contains "{datefolders}".toList a.dataset = false := by
      have : "{datefolders}".toList = '{' :: "datefolders}".toList := rfl
      rw [this, e0, contains_brace hb']; decide
    have c3 : contains "{datefolders_short}".toList a.dataset = true := by
      have : "{datefolders_short}".toList = '{' :: "datefolders_short}".toList := rfl
      rw [this, e0, contains_brace hb']; decide
    have r : replace "{datefolders_short}".toList [] a.dataset = ds ++ ['/'] := by
      have : "{datefolders_short}".toList = '{' :: "datefolders_short}".toList := rfl
      rw [this, e0, replace_suffix hb']
    have e : withPartitions (overrides a).1 (overrides a).2
        = ds ++ '/' :: '/' :: join ['/'] shortPartitions := by
      simp only [overrides, c1, c2, r, c3, if_true, if_false, Bool.false_eq_true, withPartitions]
      rw [if_neg (by decide)]
      simp
    rw [if_neg (by decide)] at hp
    obtain ⟨h1, h2⟩ := dataset_head hf hne hp
    rw [e]
    refine ⟨by simp, ?_, ?_⟩
    · have : (ds ++ '/' :: '/' :: join ['/'] shortPartitions).getLast? = some '}' := by
        rw [List.getLast?_append]; rfl
      rw [this]; decide
    · rw [parse_slashes h1 h2, ← hpj, ← hp]; simp [shortPartitions]

theorem good_iff (a : Args) : Good a ↔
    ∃ b, schemaLoader a.schema = .ok b ∧ (!b && decide (a.format = "parquet".toList)) = false ∧
      supportedFormats.contains a.format = true := by
  constructor
  · intro h
    have hf : supportedFormats.contains a.format = true := List.contains_iff_mem.2 h.format
    cases hs : a.schema with
    | missing => exact absurd hs h.schema
    | none =>
      refine ⟨false, rfl, ?_, hf⟩
      have : a.format ≠ "parquet".toList := by
        intro e
        have := h.parquet e
        rw [hs] at this
        cases this
      simp only [this, decide_false, Bool.and_false]
    | given => exact ⟨true, rfl, rfl, hf⟩
  · rintro ⟨b, hb, hp, hf⟩
    refine ⟨?_, ?_, List.contains_iff_mem.1 hf⟩
    · intro e; rw [e] at hb; cases hb
    · intro e
      cases hs : a.schema with
      | missing => rw [hs] at hb; cases hb
      | none => rw [hs] at hb; cases hb; simp [e] at hp
      | given => rfl

theorem writerInit_eq {a : Args} {now d : DateTime} (hd : Dated now a.date d) (rnd f : Str)
    (hb : buildPath (withPartitions (overrides a).1 (overrides a).2) d rnd = .ok f) :
    (Good a ∧ writerInit a now rnd = .ok f) ∨ (¬ Good a ∧ writerInit a now rnd = .error .valueError) := by
  have e : writerInit a now rnd = (schemaLoader a.schema).bind (fun b =>
      if !b && decide (a.format = "parquet".toList) then .error .valueError
      else (buildPath (withPartitions (overrides a).1 (overrides a).2) d rnd).bind (fun f =>
        if !supportedFormats.contains a.format then .error .valueError else .ok f)) := by
    unfold writerInit
    rw [dated_eq hd]
    simp only [bind, Except.bind, pure, Except.pure, throw, throwThe, MonadExceptOf.throw]
  rw [e, hb, good_iff]
  cases hsch : schemaLoader a.schema with
  | error er =>
    right
    refine ⟨?_, ?_⟩
    · rintro ⟨b, h1, _⟩; cases h1
    · cases hs : a.schema <;> rw [hs] at hsch <;> cases hsch
      rfl
  | ok b =>
    simp only [Except.bind]
    by_cases hc : (!b && decide (a.format = "parquet".toList)) = true
    · right
      refine ⟨?_, by simp only [hc, if_true]⟩
      rintro ⟨b', h1, h2, _⟩
      cases h1
      rw [hc] at h2
      cases h2
    · simp only [Bool.not_eq_true] at hc
      by_cases hs : supportedFormats.contains a.format = true
      · left
        exact ⟨⟨b, rfl, hc, hs⟩, by simp only [hc, hs, Bool.not_true, if_false, Bool.false_eq_true]⟩
      · right
        refine ⟨?_, ?_⟩
        · rintro ⟨b', _, _, h3⟩; exact hs h3
        · simp only [Bool.not_eq_true] at hs
          simp only [hc, hs, Bool.not_false, if_true, if_false, Bool.false_eq_true]

/-- The folder of a writer. -/
theorem asks_init {a : Args} {ds : Str} {ps : List Str} (h : Asks a ds ps) {now d : DateTime}
    (hd : Dated now a.date d) {rnd : Str} {ls : List (List Piece)}
    (hw : Job.OK ⟨ds, ps, d, a.format, rnd⟩ ls) (hn : Nested ls) :
    (Good a ∧ writerInit a now rnd = .ok (join ['/'] (ls.map (filled d)) ++ ['/'])) ∨
      (¬ Good a ∧ writerInit a now rnd = .error .valueError) := by
  obtain ⟨s, e, h1, h2, h3⟩ := asks_path h hw.folders hn hw.path
  apply writerInit_eq hd
  rw [e]
  exact buildPath_folders hw.folders (folders_template hw.folders hn) h1 h2 h3 hw.date rnd

/-- **C83 (what is refused).**  A writer for a dataset of folders is refused exactly if it has no schema
and does not say so, has no schema for a format that needs one, or has a format there is no such. -/
theorem C83_refused (a : Args) (ds : Str) (ps : List Str) (h : Asks a ds ps) (now d : DateTime)
    (hd : Dated now a.date d) (rnd : Str) (ls : List (List Piece))
    (hw : Job.OK ⟨ds, ps, d, a.format, rnd⟩ ls) (hn : Nested ls) :
    ((∃ f, writerInit a now rnd = .ok f) ↔ Good a) ∧ (¬ Good a → writerInit a now rnd = .error .valueError) := by
  rcases asks_init h hd hw hn with ⟨hg, e⟩ | ⟨hg, e⟩
  · exact ⟨⟨fun _ => hg, fun _ => ⟨_, e⟩⟩, fun h => absurd hg h⟩
  · exact ⟨⟨fun ⟨f, hf⟩ => (by rw [e] at hf; cases hf), fun h => absurd h hg⟩, fun _ => e⟩

theorem base_no_brace {w : Job} {ls : List (List Piece)} (h : w.OK ls) : '{' ∉ w.base ls := by
  unfold Job.base
  rw [← filled_path]
  exact filled_no_brace h.date (plain_path (fun l hl => (h.folders l hl).plain))

/-- **C83 (where the data goes).**  However the dataset, the partitions and the date are given, a writer
stores a blob in the folder of the dataset for the date, under its identifier and the extension of the
format. -/
theorem C83_where (a : Args) (ds : Str) (ps : List Str) (h : Asks a ds ps) (now d : DateTime)
    (hd : Dated now a.date d) (rnd : Str) (ls : List (List Piece))
    (hw : Job.OK ⟨ds, ps, d, a.format, rnd⟩ ls) (hn : Nested ls) (hg : Good a) (i : Str) :
    writerBlob a now rnd i
      = .ok (join ['/'] (ls.map (filled d)) ++ '/' :: (i ++ extension a.format)) := by
  rcases asks_init h hd hw hn with ⟨_, e⟩ | ⟨hg', _⟩
  · have hF := folders_filled hw.folders hn hw.date
    unfold writerBlob
    rw [e]
    exact blobName_folders hF (by simp) (parse_slash hF.ne hF.comp) (base_no_brace hw) a.format i
  · exact absurd hg hg'

/-- A dataset of a single folder, without partitions: a folder called `partitions` is added. -/
theorem C83_single_folder (a : Args) (h : Asks a a.dataset []) (now d : DateTime) (hv : d.valid = true)
    (hd : Dated now a.date d) (rnd : Str) (hc : Comp a.dataset) (hb : '{' ∉ a.dataset) (hg : Good a) (i : Str) :
    writerBlob a now rnd i = .ok (a.dataset ++ "/partitions/".toList ++ i ++ extension a.format) := by
  have hwp : withPartitions (overrides a).1 (overrides a).2 = a.dataset := by
    generalize hds : a.dataset = ds at h
    generalize hps : ([] : List Str) = ps at h
    cases h with
    | partitions hn hr =>
      simp only [overrides, hn, hr, if_false, Bool.false_eq_true, withPartitions]
      cases hp : a.partitions with
      | none => rfl
      | some p =>
        rw [hp] at hps
        simp only [Option.getD_some] at hps
        simp [← hps]
    | rawPath hn hr => simp only [overrides, hn, hr, if_true, if_false, Bool.false_eq_true, withPartitions]
    | datefolders => cases hps
    | datefoldersShort => cases hps
  have hlast : a.dataset.getLast? ≠ some '/' := fun e => hc.2.2 (List.mem_of_getLast? e)
  have hbp : buildPath a.dataset d rnd = .ok (a.dataset ++ "/partitions/".toList) := by
    unfold buildPath
    rw [if_neg hc.1, if_pos hlast, (C52_bucket_alone a.dataset hc).1]
    simp only
    rw [if_pos (by decide)]
    have hpl : Plain [.lit (a.dataset ++ ['/'] ++ "partitions/".toList)] := by
      intro s hs
      simp only [List.mem_singleton, Piece.lit.injEq] at hs
      rw [hs]
      simp only [List.mem_append, not_or]
      exact ⟨⟨hb, by decide⟩, by decide⟩
    have e1 : a.dataset ++ ['/'] ++ "partitions/".toList
        = template [.lit (a.dataset ++ ['/'] ++ "partitions/".toList)] := by simp [template]
    rw [e1, C52_template _ hpl _ hv, replace_stem_none (filled_no_brace hv hpl)]
    simp [filled]
  rcases writerInit_eq hd rnd (a.dataset ++ "/partitions/".toList) (by rw [hwp]; exact hbp) with ⟨_, e⟩ | ⟨hg', _⟩
  · have hF : Folders [a.dataset, "partitions".toList] := by
      refine ⟨?_, by simp, ?_⟩
      · intro c hm
        simp only [List.mem_cons, List.not_mem_nil, or_false] at hm
        rcases hm with rfl | rfl
        · exact hc
        · exact ⟨by decide, by decide, by decide⟩
      · intro c hm
        simp only [List.getLast?_cons_cons, List.getLast?_singleton, Option.mem_def, Option.some.injEq] at hm
        rw [← hm]; decide
    have hbr : '{' ∉ join ['/'] [a.dataset, "partitions".toList] := by
      simp only [join, List.mem_append, not_or]
      exact ⟨⟨hb, by decide⟩, by decide⟩
    have hps := parse_slash hF.ne hF.comp
    have e2 : join ['/'] [a.dataset, "partitions".toList] ++ ['/'] = a.dataset ++ "/partitions/".toList := by
      simp [join]
    rw [e2] at hps
    unfold writerBlob
    rw [e]
    have := blobName_folders hF (s := a.dataset ++ "/partitions/".toList) (by simp) hps hbr a.format i
    simp only [bind, Except.bind]
    rw [this]
    simp [join]
  · exact absurd hg hg'

/-! ## What is stored is read -/

/-- One blob stored by a writer: how the writer was constructed, and the identifier of the blob. -/
structure Written where
  args : Args
  now : DateTime
  rnd : Str
  id : Str

/-- It was stored for the dataset, the partitions and the date. -/
structure Written.For (e : Written) (ds : Str) (ps : List Str) (d : DateTime) : Prop where
  asks : Asks e.args ds ps
  dated : Dated e.now e.args.date d
  good : Good e.args
  id : HexId e.id

/-- The disk holds, beneath the folder of the dataset and date, exactly the blobs of the writers and the
blobs and markers of the runs of batch writers. -/
structure HoldsAll (w : Job) (ws : List Written) (hs : List Batch) (files : List Posix) (p : Posix) : Prop where
  normal : ∀ q ∈ files, Posix.parse q.str = q
  beneath_iff : ∀ q, (q ∈ files ∧ beneath p q = true) ↔
    (∃ e ∈ ws, ∃ x, writerBlob e.args e.now e.rnd e.id = .ok x ∧ q = Posix.parse x) ∨
    (∃ b ∈ hs, ∃ bl mk, b.blobs w = .ok bl ∧ b.markers w = .ok mk ∧ ∃ x ∈ bl ++ mk, q = Posix.parse x)

theorem ok_any {w : Job} {ls : List (List Piece)} (h : w.OK ls) (format rnd : Str) :
    Job.OK ⟨w.dataset, w.partitions, w.date, format, rnd⟩ ls := ⟨h.folders, h.ne, h.path, h.dataset, h.date⟩

theorem written_name {w : Job} {ls : List (List Piece)} (h : w.OK ls) (hn : Nested ls) {e : Written}
    (he : e.For w.dataset w.partitions w.date) :
    writerBlob e.args e.now e.rnd e.id
      = .ok (w.base ls ++ '/' :: (e.id ++ extension e.args.format)) :=
  C83_where e.args _ _ he.asks e.now _ he.dated e.rnd ls (ok_any h _ _) hn he.good e.id

theorem name_comp (i format : Str) (h : HexId i) : Comp (i ++ extension format) := by
  obtain ⟨t, ht⟩ := ext_head format
  refine ⟨by rw [ht]; simp, ?_, (name_plain h).1⟩
  intro e
  have e2 := congrArg List.length e
  have : 4 ≤ (extension format).length := by
    unfold extension
    split
    · decide
    · split
      · rename_i hf; rcases hf with rfl | rfl <;> decide
      · decide
  simp only [List.length_append, List.length_cons, List.length_nil] at e2
  omega

theorem written_parse {w : Job} {ls : List (List Piece)} (h : w.OK ls) {i format : Str} (hi : HexId i) :
    Posix.parse (w.base ls ++ '/' :: (i ++ extension format))
        = ⟨[], ls.map (filled w.date) ++ [i ++ extension format]⟩ ∧
      (Posix.parse (w.base ls ++ '/' :: (i ++ extension format))).str
        = w.base ls ++ '/' :: (i ++ extension format) := by
  have hne : ls.map (filled w.date) ≠ [] := by simpa using h.ne
  have e : w.base ls ++ '/' :: (i ++ extension format)
      = join ['/'] (ls.map (filled w.date) ++ [i ++ extension format]) := by
    rw [join_snoc _ _ hne]; rfl
  have hc : ∀ c ∈ ls.map (filled w.date) ++ [i ++ extension format], Comp c := by
    intro c hc
    rcases List.mem_append.1 hc with hc | hc
    · obtain ⟨l, hl, rfl⟩ := List.mem_map.1 hc
      exact folder_filled (h.folders l hl) h.date
    · rw [List.mem_singleton.1 hc]; exact name_comp i format hi
  have hp := parse_join (by simp) hc
  rw [e, hp]
  exact ⟨rfl, by simp [Posix.str]⟩

theorem written_plain {base : Str} (hb : PlainBase base) {i format : Str} (hi : HexId i) :
    contains "as_at_".toList (base ++ '/' :: (i ++ extension format)) = false ∧
    contains "/by_".toList (base ++ '/' :: (i ++ extension format)) = false ∧
    contains "BACKOUT".toList (base ++ '/' :: (i ++ extension format)) = false := by
  obtain ⟨h1, h2, h3⟩ := name_plain (format := format) hi
  refine ⟨?_, ?_, ?_⟩
  · rw [← Bool.not_eq_true, contains_slash (by decide) (by decide), hb.as_at,
      contains_of_not_mem (c := '_') (by decide) h2]
    simp
  · rw [contains_false]
    rintro ⟨u, v, e⟩
    have e0 : "/by_".toList = '/' :: "by_".toList := rfl
    rw [e0] at e
    rcases occ_sep (by decide) e with ⟨z, hz⟩ | ⟨_, hz⟩ | ⟨z, _, hz⟩
    · exact contains_false.1 hb.by_ ⟨u, z, by rw [hz]; rfl⟩
    · exact h2 (by rw [hz]; simp)
    · exact h1 (by rw [hz]; simp)
  · rw [← Bool.not_eq_true, contains_slash (by decide) (by decide), hb.backout,
      contains_of_not_mem (c := 'B') (by decide) h3]
    simp

/-- What storage lists in the folder. -/
theorem mem_disk {w : Job} {ls : List (List Piece)} (h : w.OK ls) (hn : Nested ls) {ws : List Written}
    (hws : ∀ e ∈ ws, e.For w.dataset w.partitions w.date) {hs : List Batch}
    (hv : ∀ b ∈ hs, b.now.valid = true) (hi : ∀ b ∈ hs, ∀ i ∈ b.ids, HexId i) {files : List Posix}
    (hd : HoldsAll w ws hs files ⟨[], ls.map (filled w.date)⟩) (x : Str) :
    x ∈ diskBlobsAt files ⟨[], ls.map (filled w.date)⟩ ↔
      (∃ e ∈ ws, x = w.base ls ++ '/' :: (e.id ++ extension e.args.format)) ∨
      ∃ b ∈ hs, ∃ y ∈ b.framed w ls, x = y.path := by
  unfold diskBlobsAt
  rw [List.mem_map]
  constructor
  · rintro ⟨q, hq, rfl⟩
    rcases (hd.beneath_iff q).1 (List.mem_filter.1 hq) with ⟨e, he, x, hx, rfl⟩ | ⟨b, hbm, hrest⟩
    · rw [written_name h hn (hws e he)] at hx
      cases hx
      exact Or.inl ⟨e, he, (written_parse h (hws e he).id).2⟩
    · obtain ⟨y, hy, rfl⟩ := (paths_eq h b (hv b hbm) q).1 hrest
      exact Or.inr ⟨b, hbm, y, hy, (framed_parse h (hv b hbm) (hi b hbm) hy).2⟩
  · rintro (⟨e, he, rfl⟩ | ⟨b, hbm, y, hy, rfl⟩)
    · refine ⟨_, ?_, (written_parse h (hws e he).id).2⟩
      apply List.mem_filter.2
      exact (hd.beneath_iff _).2 (Or.inl ⟨e, he, _, written_name h hn (hws e he), rfl⟩)
    · refine ⟨Posix.parse y.path, ?_, (framed_parse h (hv b hbm) (hi b hbm) hy).2⟩
      apply List.mem_filter.2
      exact (hd.beneath_iff _).2 (Or.inr ⟨b, hbm, (paths_eq h b (hv b hbm) _).2 ⟨y, hy, rfl⟩⟩)

/-- Without segments and data put aside, the frames decide. -/
theorem cycleBlobs_frames {stored : List Str} (hby : ∀ x ∈ stored, contains "/by_".toList x = false)
    (hbo : ∀ x ∈ stored, contains "BACKOUT".toList x = false)
    (hsl : ∀ x ∈ stored, contains ['/'] x = true) :
    cycleBlobs none stored = .ok (frameBlobs stored) := by
  have e1 : stored.filter (fun b => !contains "BACKOUT".toList b) = stored := by
    rw [List.filter_eq_self]; intro x hx; rw [hbo x hx]; rfl
  have e2 : partitionings stored = [] := by
    unfold partitionings
    rw [List.filter_eq_nil_iff.2 (by intro x hx; rw [hby x hx]; decide)]
    rfl
  have e3 : stored.filter (fun b => contains ([] ++ ['/'] ++ []) b) = stored := by
    rw [List.filter_eq_self]; intro x hx; exact hsl x hx
  unfold cycleBlobs applyFilter
  simp only [e1, e2]
  have : (sorted strLe ([] : List Str)).getLast? = none := rfl
  rw [this]
  simp only [segmentBlobs, if_true, List.flatMap_cons, List.flatMap_nil, List.append_nil, e3]
  congr 2

/-- The blobs of the dataset and date are listed only for the date. -/
theorem listed_here {w : Job} {ls : List (List Piece)} (h : w.OK ls) {files : List Posix}
    (hnorm : ∀ q ∈ files, Posix.parse q.str = q) (rnd : Str)
    (dates : List DateTime) (hdv : ∀ d ∈ dates, d.valid = true) (hmem : w.date ∈ dates) (c : List Str)
    (hc : cycleBlobs none (diskBlobsAt files ⟨[], ls.map (filled w.date)⟩) = .ok c) :
    ∃ l, listBlobs (readerDataset w.dataset w.partitions) rnd none (diskBlobsAt files) dates = .ok l ∧
      ∀ x, beneath ⟨[], ls.map (filled w.date)⟩ (Posix.parse x) = true → (x ∈ l ↔ x ∈ c) := by
  obtain ⟨l, hl, hlx⟩ := listBlobs_none_ok (readerDataset w.dataset w.partitions) rnd (diskBlobsAt files) dates
  refine ⟨l, hl, ?_⟩
  intro x hx
  rw [hlx]
  constructor
  · rintro ⟨d, hdm, c', hc', hxc⟩
    have hp' := cyclePath_eq (job_date h (hdv d hdm)) rnd
    simp only at hp'
    have hst := (mem_cycleBlobs hc' hxc).1
    rw [hp'] at hst hc'
    unfold diskBlobsAt at hst
    obtain ⟨q, hq, rfl⟩ := List.mem_map.1 hst
    obtain ⟨hqf, hqb⟩ := List.mem_filter.1 hq
    rw [hnorm q hqf] at hx
    simp only [beneath, Bool.and_eq_true, decide_eq_true_eq, List.isPrefixOf_iff_prefix] at hx hqb
    have : ls.map (filled w.date) = ls.map (filled d) := by
      have h1 := List.prefix_of_prefix_length_le hx.1.2 hqb.1.2 (by simp)
      exact h1.eq_of_length (by simp)
    rw [← this, hc] at hc'
    cases hc'
    exact hxc
  · intro hxc
    exact ⟨w.date, hmem, c, (cyclePath_eq h rnd) ▸ hc, hxc⟩

/-- **C83 (what is stored is read).**  Whatever writers stored blobs for a dataset and date, however
they were given the dataset, the partitions and the date, a reader of the dataset whose dates include
that date lists, of the blobs beneath the folder of the date, exactly these. -/
theorem C83_stored_is_read_partial (w : Job) (ls : List (List Piece)) (h : w.OK ls) (hn : Nested ls)
    (hb : PlainBase (w.base ls)) (ws : List Written)
    (hws : ∀ e ∈ ws, e.For w.dataset w.partitions w.date) (files : List Posix) (rnd : Str)
    (hd : HoldsAll w ws [] files (cyclePath (readerDataset w.dataset w.partitions) rnd w.date))
    (dates : List DateTime) (hdv : ∀ d ∈ dates, d.valid = true) (hmem : w.date ∈ dates) :
    ∃ l, listBlobs (readerDataset w.dataset w.partitions) rnd none (diskBlobsAt files) dates = .ok l ∧
      ∀ x, beneath (cyclePath (readerDataset w.dataset w.partitions) rnd w.date) (Posix.parse x) = true →
        (x ∈ l ↔ ∃ e ∈ ws, writerBlob e.args e.now e.rnd e.id = .ok x) := by
  rw [cyclePath_eq h rnd] at hd ⊢
  have hm := mem_disk h hn hws (hs := []) (by simp) (by simp) hd
  have hx : ∀ x ∈ diskBlobsAt files ⟨[], ls.map (filled w.date)⟩,
      ∃ e ∈ ws, x = w.base ls ++ '/' :: (e.id ++ extension e.args.format) := by
    intro x hx
    rcases (hm x).1 hx with hx | ⟨b, hb, _⟩
    · exact hx
    · simp at hb
  have hc := cycleBlobs_frames (stored := diskBlobsAt files ⟨[], ls.map (filled w.date)⟩)
    (by
      intro x hxm
      obtain ⟨e, he, rfl⟩ := hx x hxm
      exact (written_plain hb (hws e he).id).2.1)
    (by
      intro x hxm
      obtain ⟨e, he, rfl⟩ := hx x hxm
      exact (written_plain hb (hws e he).id).2.2)
    (by
      intro x hxm
      obtain ⟨e, he, rfl⟩ := hx x hxm
      exact contains_iff.2 ⟨_, _, by rw [List.append_assoc]; rfl⟩)
  have hf : frameBlobs (diskBlobsAt files ⟨[], ls.map (filled w.date)⟩)
      = diskBlobsAt files ⟨[], ls.map (filled w.date)⟩ := by
    unfold frameBlobs
    have : (diskBlobsAt files ⟨[], ls.map (filled w.date)⟩).filter
        (fun b => contains "as_at_".toList b) = [] := by
      apply List.filter_eq_nil_iff.2
      intro x hxm
      obtain ⟨e, he, rfl⟩ := hx x hxm
      simp only [(written_plain hb (hws e he).id).1]
      simp
    rw [this]
    rfl
  rw [hf] at hc
  obtain ⟨l, hl, hlx⟩ := listed_here h hd.normal rnd dates hdv hmem _ hc
  refine ⟨l, hl, ?_⟩
  intro x hxb
  rw [hlx x hxb]
  constructor
  · intro hxm
    obtain ⟨e, he, rfl⟩ := hx x hxm
    exact ⟨e, he, written_name h hn (hws e he)⟩
  · rintro ⟨e, he, hxe⟩
    rw [written_name h hn (hws e he)] at hxe
    cases hxe
    exact (hm _).2 (Or.inl ⟨e, he, rfl⟩)

/-- **A batch writer hides what writers stored.**  As soon as a run of a batch writer, even one that is
not completed, has stored anything for the dataset and date, no blob of a writer is listed. -/
theorem C83_frames_hide_fails (w : Job) (ls : List (List Piece)) (h : w.OK ls) (hn : Nested ls)
    (hb : PlainBase (w.base ls)) (ws : List Written)
    (hws : ∀ e ∈ ws, e.For w.dataset w.partitions w.date) (hs : List Batch)
    (hv : ∀ b ∈ hs, b.now.valid = true) (hi : ∀ b ∈ hs, ∀ i ∈ b.ids, HexId i)
    (hsome : ∃ b ∈ hs, b.ids ≠ []) (files : List Posix) (rnd : Str)
    (hd : HoldsAll w ws hs files (cyclePath (readerDataset w.dataset w.partitions) rnd w.date))
    (dates : List DateTime) (hdv : ∀ d ∈ dates, d.valid = true) (hmem : w.date ∈ dates)
    (e : Written) (he : e ∈ ws) (x : Str) (hx : writerBlob e.args e.now e.rnd e.id = .ok x) :
    ∃ l, listBlobs (readerDataset w.dataset w.partitions) rnd none (diskBlobsAt files) dates = .ok l ∧
      x ∉ l := by
  rw [cyclePath_eq h rnd] at hd
  have hm := mem_disk h hn hws hv hi hd
  have hcases : ∀ x ∈ diskBlobsAt files ⟨[], ls.map (filled w.date)⟩,
      contains "/by_".toList x = false ∧ contains "BACKOUT".toList x = false ∧
        contains ['/'] x = true := by
    intro x hxm
    rcases (hm x).1 hxm with ⟨e, he, rfl⟩ | ⟨b, hbm, y, hy, rfl⟩
    · refine ⟨(written_plain hb (hws e he).id).2.1, (written_plain hb (hws e he).id).2.2, ?_⟩
      exact contains_iff.2 ⟨_, _, by rw [List.append_assoc]; rfl⟩
    · refine ⟨(framed_path_plain hb (hv b hbm) (hi b hbm) hy).1,
        (framed_path_plain hb (hv b hbm) (hi b hbm) hy).2, ?_⟩
      exact contains_iff.2 ⟨y.base ++ '/' :: y.frame, y.name, by simp [Framed.path]⟩
  have hc := cycleBlobs_frames (fun x hx => (hcases x hx).1) (fun x hx => (hcases x hx).2.1)
    (fun x hx => (hcases x hx).2.2)
  obtain ⟨l, hl, hlx⟩ := listed_here h hd.normal rnd dates hdv hmem _ hc
  refine ⟨l, hl, ?_⟩
  rw [written_name h hn (hws e he)] at hx
  cases hx
  have hbn : beneath ⟨[], ls.map (filled w.date)⟩
      (Posix.parse (w.base ls ++ '/' :: (e.id ++ extension e.args.format))) = true := by
    rw [(written_parse h (hws e he).id).1]
    simp [beneath]
  rw [hlx _ hbn]
  -- every frame is called as_at_…
  have hfr : ∀ f ∈ dedup (((diskBlobsAt files ⟨[], ls.map (filled w.date)⟩).filter
      (fun b => contains "as_at_".toList b)).map extractAsAt), "as_at_".toList <+: f := by
    intro f hf
    obtain ⟨y, hy, rfl⟩ := List.mem_map.1 (dedup_mem.1 hf)
    obtain ⟨hy1, hy2⟩ := List.mem_filter.1 hy
    rcases (hm y).1 hy1 with ⟨e, he, rfl⟩ | ⟨b, hbm, z, hz, rfl⟩
    · rw [(written_plain hb (hws e he).id).1] at hy2
      cases hy2
    · have hok := framed_ok hb (hv b hbm) (hi b hbm) hz
      rw [extractAsAt_path hok]
      exact hok.frame_as_at
  have hne : dedup (((diskBlobsAt files ⟨[], ls.map (filled w.date)⟩).filter
      (fun b => contains "as_at_".toList b)).map extractAsAt) ≠ [] := by
    obtain ⟨b, hbm, hid⟩ := hsome
    obtain ⟨i, him⟩ := List.exists_mem_of_ne_nil _ hid
    have hz : (⟨w.base ls, asAtName b.now, i ++ extension w.format⟩ : Framed) ∈ b.framed w ls :=
      List.mem_append_left _ (List.mem_map.2 ⟨i, him, rfl⟩)
    have hok := framed_ok hb (hv b hbm) (hi b hbm) hz
    apply List.ne_nil_of_mem (a := asAtName b.now)
    rw [dedup_mem]
    exact List.mem_map.2 ⟨_, List.mem_filter.2 ⟨(hm _).2 (Or.inr ⟨b, hbm, _, hz, rfl⟩), contains_asAt hok⟩,
      extractAsAt_path hok⟩
  intro hxm
  unfold frameBlobs at hxm
  simp only at hxm
  rw [if_neg hne] at hxm
  split at hxm
  · simp at hxm
  · rename_i f hf
    have hff : f ∈ dedup (((diskBlobsAt files ⟨[], ls.map (filled w.date)⟩).filter
        (fun b => contains "as_at_".toList b)).map extractAsAt) := by
      rw [pickFrame_eq_find] at hf
      have := List.mem_of_find?_eq_some hf
      rw [List.mem_reverse, mem_sorted] at this
      exact this
    obtain ⟨t, ht⟩ := hfr f hff
    have h1 := (List.mem_filter.1 hxm).2
    simp only [Bool.and_eq_true] at h1
    obtain ⟨u, v, huv⟩ := contains_iff.1 h1.1
    refine contains_false.1 (written_plain (format := e.args.format) hb (hws e he).id).1 ⟨u, t ++ v, ?_⟩
    rw [huv, ← ht]; simp

/-- Such disks exist. -/
theorem holdsAll_exists (w : Job) (ls : List (List Piece)) (h : w.OK ls) (hn : Nested ls)
    (ws : List Written) (hws : ∀ e ∈ ws, e.For w.dataset w.partitions w.date) (hs : List Batch)
    (hv : ∀ b ∈ hs, b.now.valid = true) (hi : ∀ b ∈ hs, ∀ i ∈ b.ids, HexId i) (rnd : Str) :
    ∃ files, HoldsAll w ws hs files (cyclePath (readerDataset w.dataset w.partitions) rnd w.date) := by
  rw [cyclePath_eq h rnd]
  refine ⟨ws.map (fun e => Posix.parse (w.base ls ++ '/' :: (e.id ++ extension e.args.format))) ++
    hs.flatMap (fun b => (b.framed w ls).map (fun x => Posix.parse x.path)), ?_, ?_⟩
  · intro q hq
    rcases List.mem_append.1 hq with hq | hq
    · obtain ⟨e, he, rfl⟩ := List.mem_map.1 hq
      rw [(written_parse h (hws e he).id).2]
    · obtain ⟨b, hb, hq⟩ := List.mem_flatMap.1 hq
      obtain ⟨x, hx, rfl⟩ := List.mem_map.1 hq
      rw [(framed_parse h (hv b hb) (hi b hb) hx).2]
  · intro q
    constructor
    · rintro ⟨hq, _⟩
      rcases List.mem_append.1 hq with hq | hq
      · obtain ⟨e, he, rfl⟩ := List.mem_map.1 hq
        exact Or.inl ⟨e, he, _, written_name h hn (hws e he), rfl⟩
      · obtain ⟨b, hb, hq⟩ := List.mem_flatMap.1 hq
        obtain ⟨x, hx, rfl⟩ := List.mem_map.1 hq
        exact Or.inr ⟨b, hb, (paths_eq h b (hv b hb) _).2 ⟨x, hx, rfl⟩⟩
    · rintro (⟨e, he, x, hx, rfl⟩ | ⟨b, hb, hq⟩)
      · rw [written_name h hn (hws e he)] at hx
        cases hx
        refine ⟨List.mem_append_left _ (List.mem_map.2 ⟨e, he, rfl⟩), ?_⟩
        rw [(written_parse h (hws e he).id).1]
        simp [beneath]
      · obtain ⟨x, hx, rfl⟩ := (paths_eq h b (hv b hb) _).1 hq
        refine ⟨List.mem_append_right _ (List.mem_flatMap.2 ⟨b, hb, List.mem_map.2 ⟨x, hx, rfl⟩⟩), ?_⟩
        rw [(framed_parse h (hv b hb) (hi b hb) hx).1]
        simp [beneath]

/-- The blobs of a writer are of a kind the reader can read, whatever the format. -/
theorem C83_readable (s format : Str) : isReadable (s ++ extension format) = true := by
  have main : ∀ (s e : Str), '.' ∉ e → dataExtensions.contains ('.' :: e) = true →
      isReadable (s ++ '.' :: e) = true := by
    intro s e he hc
    unfold isReadable
    rw [split_slash, split_of_not_mem he, List.getLast?_append]
    exact hc
  unfold extension
  split
  · exact main s "txt".toList (by decide) (by decide)
  · split
    · rename_i hf
      rcases hf with rfl | rfl
      · have := main (s ++ ".jsonl".toList) "zstd".toList (by decide) (by decide)
        simpa using this
      · have := main (s ++ ".jsonl".toList) "parquet".toList (by decide) (by decide)
        simpa using this
    · exact main s "jsonl".toList (by decide) (by decide)

/-! ## Batch writers -/

theorem buildPath_ok {s : Str} {cs : List Str} (hs : s ≠ []) (hp : Posix.parse s = ⟨[], cs⟩) (hne : cs ≠ [])
    (d : DateTime) (rnd : Str) : ∃ f, buildPath s d rnd = .ok f := by
  have hg : ∃ b p u v, getParts s = .ok (b, p, u, v) := by
    unfold getParts
    rw [if_neg hs, hp]
    simp only [Posix.parts, if_true]
    match cs, hne with
    | [c], _ => exact ⟨_, _, _, _, rfl⟩
    | c :: c' :: cs, _ =>
      simp only
      split
      · exact ⟨_, _, _, _, rfl⟩
      · exact ⟨_, _, _, _, rfl⟩
  obtain ⟨b, p, u, v, hg⟩ := hg
  unfold buildPath
  rw [if_neg hs]
  split
  · rw [hg]; exact ⟨_, rfl⟩
  · exact ⟨_, rfl⟩

/-- A path in the folder of a frame has folders. -/
theorem parse_in_folder {cs : List Str} (hc : ∀ c ∈ cs, Comp c) (hne : cs ≠ []) (rest : Str) :
    ∃ cs', cs' ≠ [] ∧ Posix.parse (join ['/'] cs ++ '/' :: rest) = ⟨[], cs'⟩ := by
  cases cs with
  | nil => exact absurd rfl hne
  | cons c cs =>
    have hh := head_join (l := cs) (hc c (by simp))
    have hs : split '/' (join ['/'] (c :: cs)) = c :: cs := split_join (by simp) (fun p hp => (hc p hp).2.2)
    have hj : join ['/'] (c :: cs) ≠ [] := by
      intro e
      have := (hc c (by simp)).1
      cases cs with
      | nil => exact this e
      | cons d ds => rw [join_cons _ _ (by simp)] at e; simp at e
    refine ⟨((c :: cs) ++ split '/' rest).filter (fun c => c != [] && c != ['.']), ?_, ?_⟩
    · apply List.ne_nil_of_mem (a := c)
      apply List.mem_filter.2
      refine ⟨by simp, ?_⟩
      have := hc c (by simp)
      simp [this.1, this.2.1]
    · unfold Posix.parse
      rw [split_slash, hs]
      generalize join ['/'] (c :: cs) = t at hh hj
      cases t with
      | nil => exact absurd rfl hj
      | cons a t =>
        have ha : a ≠ '/' := hh a (by simp)
        simp only [List.cons_append]
        split
        · rename_i e; simp only [List.cons.injEq] at e; exact absurd e.1 ha
        · rename_i e; simp only [List.cons.injEq] at e; exact absurd e.1 ha
        · rename_i e; simp only [List.cons.injEq] at e; exact absurd e.1 ha
        · rfl

/-- The constructor a batch writer extends succeeds for the folder of a frame. -/
theorem super_ok {a : Args} {now : DateTime} {rnd : Str} {cs : List Str} (hc : ∀ c ∈ cs, Comp c)
    (hne : cs ≠ []) (hb : '{' ∉ join ['/'] cs) (hg : Good a) (hd : a.date = .missing)
    (hds : a.dataset = join ['/'] cs ++ ['/']) : ∃ f, writerInit a now rnd = .ok f := by
  have hb' : '{' ∉ a.dataset := by
    rw [hds]; simp only [List.mem_append, List.mem_singleton, not_or]; exact ⟨hb, by decide⟩
  have c1 : contains "{date".toList a.dataset = false := contains_of_not_mem (c := '{') (by decide) hb'
  have e : ∃ rest, withPartitions (overrides a).1 (overrides a).2 = join ['/'] cs ++ '/' :: rest := by
    simp only [overrides, c1, if_false, Bool.false_eq_true, withPartitions]
    split
    · exact ⟨[], hds⟩
    · rename_i ps _
      by_cases hp : ps = []
      · rw [if_pos hp]; exact ⟨[], hds⟩
      · rw [if_neg hp]; exact ⟨'/' :: join ['/'] ps, by rw [hds]; simp⟩
  obtain ⟨rest, e⟩ := e
  obtain ⟨cs', h1, h2⟩ := parse_in_folder hc hne rest
  obtain ⟨f, hf⟩ := buildPath_ok (by simp) h2 h1 now rnd
  have hdd : Dated now a.date now := by rw [hd]; exact .missing
  rcases writerInit_eq hdd rnd f (by rw [e]; exact hf) with ⟨_, h⟩ | ⟨h, _⟩
  · exact ⟨f, h⟩
  · exact absurd hg h

theorem frame_comps {w : Job} {ls : List (List Piece)} (h : w.OK ls) {now : DateTime} (hn : now.valid = true) :
    (∀ c ∈ ls.map (filled w.date) ++ [asAtName now], Comp c) ∧
      '{' ∉ join ['/'] (ls.map (filled w.date) ++ [asAtName now]) := by
  constructor
  · intro c hc
    rcases List.mem_append.1 hc with hc | hc
    · obtain ⟨l, hl, rfl⟩ := List.mem_map.1 hc
      exact folder_filled (h.folders l hl) h.date
    · rw [List.mem_singleton.1 hc]
      exact ⟨by rw [asAtName_eq]; simp, by rw [asAtName_eq]; simp, asAtName_flat hn⟩
  · rw [join_snoc _ _ (by simpa using h.ne)]
    simp only [List.mem_append, List.mem_cons, not_or]
    exact ⟨base_no_brace h, by decide, asAtName_brace hn⟩

/-- **C83 (a batch writer).**  A batch writer stores a blob in the folder of the dataset for the date,
in the frame of the time it was constructed. -/
theorem C83_batch (a : Args) (now d : DateTime) (hnow : now.valid = true) (hd : Dated now a.date d) (rnd : Str)
    (ls : List (List Piece)) (hw : Job.OK ⟨a.dataset, a.partitions.getD [], d, a.format, rnd⟩ ls)
    (hg : Good a) (i : Str) :
    batchWriterBlob a none now rnd i
      = .ok (join ['/'] (ls.map (filled d)) ++ '/' :: asAtName now ++ '/' :: (i ++ extension a.format)) := by
  have hf : batchFrame a none now rnd = .ok (join ['/'] (ls.map (filled d) ++ [asAtName now]) ++ ['/']) := by
    unfold batchFrame
    rw [dated_eq hd]
    exact frameId_eq hw hnow
  have hbb := batchBlob_eq hw hnow i
  unfold batchBlob at hbb
  simp only at hbb
  rw [frameId_eq hw hnow] at hbb
  obtain ⟨hc, hb⟩ := frame_comps hw hnow
  obtain ⟨f, hs⟩ := super_ok (a := { a with dataset := join ['/'] (ls.map (filled d) ++ [asAtName now]) ++ ['/'], date := .missing })
    (now := now) (rnd := rnd) hc (by simp) hb ⟨hg.schema, hg.parquet, hg.format⟩ rfl rfl
  unfold batchWriterBlob batchInit
  rw [hf]
  simp only [bind, Except.bind, pure, Except.pure]
  rw [hs]
  exact hbb

/-- **C83 (a job that is split).**  A batch writer that is given the frame of another one stores in that
frame, whenever it is constructed and whatever dataset, date and partitions it is given. -/
theorem C83_split_job (a b : Args) (now now' d : DateTime) (hnow : now.valid = true) (hd : Dated now a.date d)
    (rnd rnd' : Str) (ls : List (List Piece))
    (hw : Job.OK ⟨a.dataset, a.partitions.getD [], d, a.format, rnd⟩ ls) (hg' : Good b)
    (f : Str) (hf : batchInit a none now rnd = .ok f) (i : Str) :
    batchWriterBlob b (some f) now' rnd' i
      = .ok (join ['/'] (ls.map (filled d)) ++ '/' :: asAtName now ++ '/' :: (i ++ extension b.format)) := by
  have hfr : batchFrame a none now rnd = .ok (join ['/'] (ls.map (filled d) ++ [asAtName now]) ++ ['/']) := by
    unfold batchFrame
    rw [dated_eq hd]
    exact frameId_eq hw hnow
  obtain ⟨hc, hb⟩ := frame_comps hw hnow
  have hff : f = join ['/'] (ls.map (filled d) ++ [asAtName now]) ++ ['/'] := by
    unfold batchInit at hf
    rw [hfr] at hf
    simp only [bind, Except.bind, pure, Except.pure] at hf
    split at hf
    · cases hf
    · exact (Except.ok.inj hf).symm
  obtain ⟨g, hs⟩ := super_ok (a := { b with dataset := f, date := .missing })
    (now := now') (rnd := rnd') hc (by simp) hb ⟨hg'.schema, hg'.parquet, hg'.format⟩ rfl hff
  have hbf : batchFrame b (some f) now' rnd' = .ok f := by
    unfold batchFrame
    cases f with
    | nil => exact absurd hff.symm (by simp)
    | cons c f => rfl
  have hbb := batchBlob_eq (w := ⟨a.dataset, a.partitions.getD [], d, b.format, rnd⟩) (ls := ls)
    ⟨hw.folders, hw.ne, hw.path, hw.dataset, hw.date⟩ hnow i
  unfold batchBlob at hbb
  simp only at hbb
  have hw' : Job.OK ⟨a.dataset, a.partitions.getD [], d, b.format, rnd⟩ ls :=
    ⟨hw.folders, hw.ne, hw.path, hw.dataset, hw.date⟩
  have hfe := frameId_eq hw' hnow
  simp only at hfe
  rw [hfe] at hbb
  unfold batchWriterBlob batchInit
  rw [hbf]
  simp only [bind, Except.bind, pure, Except.pure]
  rw [hs]
  simp only
  rw [hff]
  exact hbb

/-! ## Where it goes wrong -/

/-- **Names that are to be refused are accepted**: the exceptions are made but not raised.  A dataset
with a name for data that is put aside is written to, and no reader, whatever its dataset, dates and
storage, ever lists what is written. -/
theorem C83_reserved_name_fails (a : Args) (ds : Str) (ps : List Str) (h : Asks a ds ps) (now d : DateTime)
    (hd : Dated now a.date d) (rnd : Str) (ls : List (List Piece))
    (hw : Job.OK ⟨ds, ps, d, a.format, rnd⟩ ls) (hn : Nested ls) (hg : Good a)
    (hb : contains "BACKOUT".toList (join ['/'] (ls.map (filled d))) = true) (i : Str) :
    ∃ x, writerBlob a now rnd i = .ok x ∧
      ∀ dataset rnd' pf blobsAt dates l, listBlobs dataset rnd' pf blobsAt dates = .ok l → x ∉ l := by
  refine ⟨_, C83_where a ds ps h now d hd rnd ls hw hn hg i, ?_⟩
  intro dataset rnd' pf blobsAt dates l hl hx
  refine C11_reader_never_lists_backout dataset rnd' pf blobsAt dates l hl _ hx ?_
  obtain ⟨u, v, e⟩ := contains_iff.1 hb
  exact ⟨u, v ++ '/' :: (i ++ extension a.format), by rw [e]; simp⟩

/-- **A date that cannot be understood is taken for today.** -/
theorem C83_bad_date_fails (a : Args) (s : Str) (h : Dates.parseIso s = none) (now : DateTime) (rnd i : Str) :
    writerBlob { a with date := .text s } now rnd i = writerBlob { a with date := .missing } now rnd i := by
  have e : writerInit { a with date := .text s } now rnd = writerInit { a with date := .missing } now rnd := by
    unfold writerInit
    simp only [writerDate, h, dateOr, Option.getD_none, Option.getD_some]
    rfl
  unfold writerBlob
  rw [e]

/-- The arguments of the samples. -/
def sampleArgs : Args where
  dataset := "tests/data".toList
  schema := .given
  format := "parquet".toList
  date := .text "2024-02-29".toList
  partitions := some defaultPartitions
  rawPath := none

/-- The time of the samples. -/
def sampleNow : DateTime := ⟨2024, 3, 1, 10, 30, 0⟩

example : Dates.parseIso "29/02/2024".toList = none ∧
    writerBlob { sampleArgs with date := .text "29/02/2024".toList } sampleNow [] "1a-2b-3c".toList
      = .ok "tests/data/year_2024/month_03/day_01/1a-2b-3c.jsonl.parquet".toList := by
  refine ⟨by decide, by decide +kernel⟩

/-- **A dataset with a dot in its name, without partitions, is written to another folder**, where a
reader of the dataset does not look. -/
theorem C83_dotted_name_fails :
    writerBlob { sampleArgs with dataset := "data/v1.2".toList, partitions := none } sampleNow [] "1a".toList
      = .ok "data/partitions/1a.jsonl.parquet".toList ∧
    listBlobs (readerDataset "data/v1.2".toList []) [] none
      (diskBlobsAt [Posix.parse "data/partitions/1a.jsonl.parquet".toList]) [sampleNow] = .ok [] := by
  refine ⟨by decide +kernel, ?_⟩
  have : (listBlobs (readerDataset "data/v1.2".toList []) [] none
      (diskBlobsAt [Posix.parse "data/partitions/1a.jsonl.parquet".toList]) [sampleNow]).toOption = some [] := by
    decide +kernel
  cases h : listBlobs (readerDataset "data/v1.2".toList []) [] none
      (diskBlobsAt [Posix.parse "data/partitions/1a.jsonl.parquet".toList]) [sampleNow] with
  | error e => rw [h] at this; cases this
  | ok l => rw [h] at this; cases this; rfl

/-- **`{datefolders}` means nothing to a batch writer**: it is the name of a folder. -/
theorem C83_batch_datefolders_fails :
    writerBlob { sampleArgs with dataset := "tests/data/{datefolders}".toList } sampleNow [] "1a".toList
      = .ok "tests/data/year_2024/month_02/day_29/1a.jsonl.parquet".toList ∧
    batchWriterBlob { sampleArgs with dataset := "tests/data/{datefolders}".toList } none sampleNow [] "1a".toList
      = .ok ("tests/data/{datefolders}/year_2024/month_02/day_29/as_at_20240301-103000/1a.jsonl.parquet").toList := by
  refine ⟨by decide +kernel, by decide +kernel⟩

/-- **`raw_path` means nothing to a batch writer**: the date is added to the name all the same. -/
theorem C83_batch_raw_path_fails (a : Args) (now d : DateTime) (hnow : now.valid = true)
    (hd : Dated now a.date d) (rnd : Str) (ls : List (List Piece))
    (hw : Job.OK ⟨a.dataset, a.partitions.getD [], d, a.format, rnd⟩ ls) (hg : Good a) (i : Str) :
    batchWriterBlob { a with rawPath := some "True".toList } none now rnd i
      = batchWriterBlob { a with rawPath := none } none now rnd i := by
  rw [C83_batch { a with rawPath := some "True".toList } now d hnow hd rnd ls hw ⟨hg.schema, hg.parquet, hg.format⟩ i,
    C83_batch { a with rawPath := none } now d hnow hd rnd ls hw ⟨hg.schema, hg.parquet, hg.format⟩ i]

/-! ### Samples -/

theorem sample_good : Good sampleArgs := ⟨by decide, fun _ => rfl, by decide⟩

theorem sample_asks : Asks sampleArgs "tests/data".toList ["year_{yyyy}/month_{mm}/day_{dd}".toList] :=
  .partitions (a := sampleArgs) (by decide) (by decide)

theorem sample_dated : Dated sampleNow sampleArgs.date ⟨2024, 2, 29, 0, 0, 0⟩ := .text _ _ (by decide)

theorem demo_nested : Nested demoFolders := ⟨by decide, by
  intro l hl
  simp only [demoFolders, List.getLast?_cons_cons, List.getLast?_singleton, Option.mem_def, Option.some.injEq] at hl
  rw [← hl]; decide⟩

example : Asks { sampleArgs with dataset := "tests/data/{datefolders}".toList, partitions := none }
    "tests/data".toList ["year_{yyyy}/month_{mm}/day_{dd}".toList] :=
  .datefolders _ (by decide) (by decide)

example : Asks { sampleArgs with dataset := "tests/data/{datefolders_short}".toList } "tests/data".toList
    ["{yyyy}/{mm}/{dd}".toList] := .datefoldersShort _ (by decide) (by decide)

example : Asks { sampleArgs with rawPath := some "True".toList } "tests/data".toList [] :=
  .rawPath (a := { sampleArgs with rawPath := some "True".toList }) (by decide) (by decide)

/-- Two writers, told of the dataset and date in different ways, and an unfinished run. -/
def sampleWritten : List Written :=
  [⟨sampleArgs, sampleNow, [], "1a-2b-3c".toList⟩,
    ⟨⟨"tests/data/{datefolders}".toList, .none, "zstd".toList, .missing, none, none⟩, ⟨2024, 2, 29, 0, 0, 0⟩, [], "1b-2b-3d".toList⟩]

theorem sampleWritten_for : ∀ e ∈ sampleWritten, e.For demoJob.dataset demoJob.partitions demoJob.date := by
  intro e he
  simp only [sampleWritten, List.mem_cons, List.not_mem_nil, or_false] at he
  rcases he with rfl | rfl
  · exact ⟨sample_asks, sample_dated, sample_good, by unfold HexId; decide⟩
  · exact ⟨.datefolders _ (by decide) (by decide), .missing, ⟨by decide, by decide, by decide⟩,
      by unfold HexId; decide⟩

example : ∃ files, HoldsAll demoJob sampleWritten demoHistory files
    (cyclePath (readerDataset demoJob.dataset demoJob.partitions) [] demoJob.date) :=
  holdsAll_exists demoJob demoFolders demo_ok demo_nested sampleWritten sampleWritten_for demoHistory
    (by decide) (by unfold HexId; decide) []

example : ∃ files, HoldsAll demoJob sampleWritten [] files
    (cyclePath (readerDataset demoJob.dataset demoJob.partitions) [] demoJob.date) :=
  holdsAll_exists demoJob demoFolders demo_ok demo_nested sampleWritten sampleWritten_for []
    (by simp) (by simp) []

example : writerBlob sampleArgs sampleNow [] "1a-2b-3c".toList
    = .ok "tests/data/year_2024/month_02/day_29/1a-2b-3c.jsonl.parquet".toList := by
  have := C83_where sampleArgs _ _ sample_asks sampleNow _ sample_dated [] demoFolders
    ⟨demo_ok.folders, demo_ok.ne, demo_ok.path, demo_ok.dataset, demo_ok.date⟩ demo_nested sample_good
    "1a-2b-3c".toList
  rw [this]; decide +kernel

end Mabel.WriterInit
