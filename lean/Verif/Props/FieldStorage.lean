import Verif.Lemmas.FieldReach
import Verif.Props.StreamStorage

/-!
# Stream writers that partition by a field, and readers with a partition filter: C90
-/

namespace Mabel.StreamStorage
open Mabel.Py Mabel.Paths Mabel.Naming Mabel.Spec Mabel.Listing Mabel.EndToEnd Mabel.Dates Mabel.History
open Mabel.Blobs (Lib Faithful Torn delivered Item readBlob Names formatOf BlobName)
open Mabel.WriterInit (Folders Nested)
open Mabel.Stream (Conf Machine Reach Pool run)
open Mabel.Stream.Spec (routed)
open Mabel.Text (sanitize)
open Mabel.Disk hiding Bytes
variable {ρ β : Type}

/-- The stream writer that also partitions by the values of a field: `by_F/F={F}`. -/
def fieldWriter (w : Job) (F : Str) (date : Option DateTime) : Setup :=
  ⟨w.dataset, w.partitions ++ ["by_".toList ++ (F ++ '/' :: (F ++ '=' :: '{' :: (F ++ ['}'])))], date, w.format⟩

example (w : Job) : (fieldWriter w "country".toList none).partitions = w.partitions ++ ["by_country/country={country}".toList] := rfl

theorem field_template {w : Job} {ls : List (List Piece)} (hw : Daily w ls) (F : Str) (date : Option DateTime) {t : DateTime}
    (ht : Day t) :
    (fieldWriter w F date).template = join ['/'] ((ls ++ fieldPieces F).map template) ++ '{' :: (F ++ ['}']) := by
  have h := (hw.ok t ht.valid).path
  have hne : ls.map template ≠ [] := by simpa using (hw.ok t ht.valid).ne
  have e : (ls ++ fieldPieces F).map template = (ls.map template ++ ["by_".toList ++ F]) ++ [F ++ ['=']] := by
    simp [fieldPieces, template]
  have h : (if w.partitions = [] then w.dataset else w.dataset ++ ['/'] ++ join ['/'] w.partitions)
      = join ['/'] (ls.map template) := h
  rw [e, join_snoc _ _ (by simp), join_snoc _ _ hne, ← h]
  unfold fieldWriter Setup.template WriterInit.withPartitions
  simp only
  rw [if_neg (by simp)]
  show w.dataset ++ ['/'] ++ join ['/'] (w.partitions ++ [_]) = (if w.partitions = [] then _ else _) ++ _ ++ _ ++ _
  by_cases hp : w.partitions = []
  · rw [if_pos hp, hp]
    simp [join]
  · rw [if_neg hp, join_snoc _ _ hp]
    simp

/-- A filter for a value of a field, that can be answered. -/
structure Asks (F : Str) (flt : PartitionFilter) : Prop where
  field : flt.field = F
  op : flt.op = "=".toList ∨ flt.op = "==".toList
  name : FieldName F
  value : contains "BACKOUT".toList (sanitize flt.value) = false

section
variable {w : Job} {ls : List (List Piece)} (hw : Daily w ls)
  (hby : ∀ t, Day t → contains "by_".toList (join ['/'] (folderOf ls t)) = false) (hfmt : w.format ≠ "text".toList)
  (date : Option DateTime) (c : Conf ρ) (hc : c.blob.format = formatOf w.format) (valid : ρ → Bool) (str : β → Str)
  (field : ρ → Str → Targets.Field β) {S : DateTime → Prop} (calls : Nat → List (Call ρ β)) (clock : List Int)
  (d : Disk) (ids : List Str) {first last : DateTime} {days : List DateTime} (hr : Range S first last days)
  (records : List ρ) (lib : Lib ρ) (hread : Readable c.blob.codec lib records) (now : DateTime) (rnd : Str)
  (prefixes : List Str) (hallow : Reader.allowed prefixes w.dataset = true) (hash : Str → Nat)
  (F : Str) (flt : PartitionFilter) (hflt : Asks F flt) (hone : OneValue str field F flt.value records)
include hw hby hfmt hc hr hallow hflt hone

/-- The records of a value and a day that are delivered at two moments. -/
theorem stream_field (hlib : Faithful c.blob.codec lib records) (htr : ∀ r ∈ records, lib.truthy r = true)
    (ha : Asked (fieldWriter w F date) valid field S calls records) (m1 m2 : Machine ρ)
    (h1 : Reach c (atStart (fieldWriter w F date) valid str calls clock) m1) (hfree : m1.owner = none) (h2 : Reach c m1 m2)
    (hroom : Room ls S d ids (handed m2.pool.store).length) :
    ∃ (hist1 hist2 : List (Nat × Call ρ β)) (left1 left2 : Nat → List (Call ρ β)),
      Served calls hist1 left1 ∧ Served left1 hist2 left2 ∧
      (∀ t, m1.todo t = (left1 t).map (op (fieldWriter w F date) valid str)) ∧
      (∀ t, m2.todo t = (left2 t).map (op (fieldWriter w F date) valid str)) ∧
      m1.pool = run c { clock := clock } (hist1.map (fun x => op (fieldWriter w F date) valid str x.2)) ∧
      (∀ x ∈ handed m2.pool.store, Goes ls ((fieldValues str field F flt.value records).map (fieldFolders F)) S x.1) ∧
      ∀ k, Torn c.blob.codec lib records ∨ AtBlob (fieldWriter w F date) ids m2.pool.store k →
        ∃ (d' : Disk) (rows : DateTime → List ρ), onDisk (fieldWriter w F date) ids d m2.pool.store k = .ok d' ∧
        (∀ t ∈ days, rows t <+: appended date (fun r => valid r && has str field F flt.value r) (fun u => midnight u = t)
          (hist1 ++ hist2)) ∧
        (m1.pool.writers = [] → Written (fieldWriter w F date) ids m1.pool.store k → ∀ t ∈ days,
          appended date (fun r => valid r && has str field F flt.value r) (fun u => midnight u = t) hist1 <+: rows t) ∧
        ((∀ t ∈ days, appended date (fun r => valid r && has str field F flt.value r) (fun u => midnight u = t)
            (hist1 ++ hist2) = []) →
          Reader.openReader (rangeReader w first last prefixes (some flt)) now rnd (diskBlobsAt d'.names)
            = .error .dataNotFound) ∧
        ((Reader.openReader (rangeReader w first last prefixes (some flt)) now rnd (diskBlobsAt d'.names)
              = .error .dataNotFound ∧ ∀ t ∈ days, rows t = []) ∨
          ∃ l, Reader.openReader (rangeReader w first last prefixes (some flt)) now rnd (diskBlobsAt d'.names) = .ok (0, l) ∧
            Names l ∧ delivered hash lib {} (read d') l = (days.flatMap rows).map .row) := by
  have hF := hflt.name
  have hs := field_template hw F date hr.start
  have hy := layout_field hw hby hF (field_values_safe (str := str) (field := field) (F := F) (x := flt.value) (records := records))
    flt hflt.field hflt.op (by simp [fieldValues]) hflt.value
  obtain ⟨hist1, hist2, left1, left2, s1, s2, t1, t2, -, hrun, hgo, hk⟩ := stream_whole hw hfmt hy (fieldWriter w F date) rfl c hc
    valid str ha.day calls (fun t a hm r ts h => field_goes hw hF hs ha.day (ha.ok t a hm)
      (fun now r names combos e => ha.records t now r names combos (e ▸ hm)) h) clock m1 m2 h1 hfree h2 d
    hroom.fresh hroom.nodup ids hroom.enough hroom.hex hroom.order hr.start hr.stop hr.order hr.all hr.among records
    ha.records lib hlib htr now rnd prefixes hallow hash
  refine ⟨hist1, hist2, left1, left2, s1, s2, t1, t2, hrun, hgo, ?_⟩
  have hmem : ∀ x ∈ hist1 ++ hist2, x.2 ∈ calls x.1 := fun x hx => (s1.append s2).mem hx
  have hro : ∀ t ∈ days, ∀ hist : List (Nat × Call ρ β), hist ⊆ hist1 ++ hist2 →
      routed (hist.map (fun x => op (fieldWriter w F date) valid str x.2)) (place ls t (fieldFolders F (sanitize flt.value)))
        = appended date (fun r => valid r && has str field F flt.value r) (fun u => midnight u = t) hist := fun t ht hist h =>
    field_routed hw hF hy hs ha.day hone ((hr.all.mem t).1 ht).1 hist (fun x hx => ha.ok _ _ (hmem x (h hx)))
      (fun t now r names combos hx => ha.records t now r names combos (hmem _ (h hx)))
  intro k htorn
  obtain ⟨d', rows, g1, g2, g3, g4, g5⟩ := hk k htorn
  refine ⟨d', fun t => rows t (fieldFolders F (sanitize flt.value)), g1, ?_, ?_, ?_, ?_⟩
  · intro t ht
    rw [← hro t ht _ (fun _ h => h)]
    exact g2 t ht _ (by simp)
  · intro he hwr t ht
    rw [← hro t ht _ (List.subset_append_left _ _)]
    exact g3 he hwr t ht _ (by simp)
  · intro hnone
    refine g4 ?_
    intro t ht sb hsb
    rw [List.mem_singleton.1 hsb, hro t ht _ (fun _ h => h)]
    exact hnone t ht
  · rcases g5 with ⟨g5, g6⟩ | ⟨l, g5, g6, g7⟩
    · exact Or.inl ⟨g5, fun t ht => g6 t ht _ (by simp)⟩
    · exact Or.inr ⟨l, g5, g6, by rw [g7]; simp⟩

include hread

/-- **C90 (finalized is kept).**  Threads call a stream writer that partitions by a field; at one moment no call
is under way and no writer is open, as after `finalize`.  At any later moment, with any calls under way and the
disk at any step after those for what was stored by then, even if it is the last it takes, a reader of a range
of days with a filter for a value of the field delivers, day by day, the valid records with this value appended
before, in the order of the appends, and then the first so many of those appended since.  It finds no data only
if there is none of this. -/
theorem C90_finalized_stays_partial (ha : Asked (fieldWriter w F date) valid field S calls records) (m1 m2 : Machine ρ)
    (h1 : Reach c (atStart (fieldWriter w F date) valid str calls clock) m1) (hfree : m1.owner = none)
    (hempty : m1.pool.writers = []) (h2 : Reach c m1 m2)
    (hroom : Room ls S d ids (handed m2.pool.store).length) :
    ∃ (hist1 hist2 : List (Nat × Call ρ β)) (left1 left2 : Nat → List (Call ρ β)),
      Served calls hist1 left1 ∧ Served left1 hist2 left2 ∧
      (∀ t, m2.todo t = (left2 t).map (op (fieldWriter w F date) valid str)) ∧
      m1.pool = run c { clock := clock } (hist1.map (fun x => op (fieldWriter w F date) valid str x.2)) ∧
      ∀ k, Written (fieldWriter w F date) ids m1.pool.store k →
        ∃ (d' : Disk) (rows : DateTime → List ρ), onDisk (fieldWriter w F date) ids d m2.pool.store k = .ok d' ∧
          (∀ t ∈ days,
            appended date (fun r => valid r && has str field F flt.value r) (fun u => midnight u = t) hist1 <+: rows t ∧
            rows t <+: appended date (fun r => valid r && has str field F flt.value r) (fun u => midnight u = t)
              (hist1 ++ hist2)) ∧
          ((Reader.openReader (rangeReader w first last prefixes (some flt)) now rnd (diskBlobsAt d'.names)
                = .error .dataNotFound ∧ ∀ t ∈ days, rows t = []) ∨
            ∃ l, Reader.openReader (rangeReader w first last prefixes (some flt)) now rnd (diskBlobsAt d'.names) = .ok (0, l) ∧
              Names l ∧ delivered hash lib {} (read d') l = (days.flatMap rows).map .row) := by
  obtain ⟨hist1, hist2, left1, left2, s1, s2, t1, t2, hrun, -, hk⟩ := stream_field hw hby hfmt date c hc valid str field calls
    clock d ids hr records lib now rnd prefixes hallow hash F flt hflt hone hread.faithful hread.truthy ha m1 m2 h1 hfree h2 hroom
  refine ⟨hist1, hist2, left1, left2, s1, s2, t2, hrun, ?_⟩
  intro k hwr
  obtain ⟨d', rows, g1, g2, g3, -, g5⟩ := hk k (Or.inl hread.torn)
  exact ⟨d', rows, g1, fun t ht => ⟨g3 hempty hwr t ht, g2 t ht⟩, g5⟩

/-- **C90 (a filter reads the records with the value).**  Threads call a stream writer that partitions by a
field and, at a moment when no call is under way and no writer is open, as after `finalize`, the disk has taken
all its steps.  A reader of a range of days with a filter for a value of the field then delivers, day by day,
exactly the valid records with this value appended on that day (or for it, if the writer has a date), in the
order in which the appends obtained the writer; it finds no data if there are none.

Partial: values are told apart by their letters, digits and white space only (`has`; see
`C90_exact_partial`), a record must not have two values that are alike in this way, and the name of the field
and the value must not be among those for which filters do not work (`Asks`). -/
theorem C90_filter_reads_value_partial (ha : Asked (fieldWriter w F date) valid field S calls records) (m : Machine ρ)
    (h : Reach c (atStart (fieldWriter w F date) valid str calls clock) m) (hfree : m.owner = none)
    (hempty : m.pool.writers = []) (hroom : Room ls S d ids (handed m.pool.store).length) :
    ∃ (hist : List (Nat × Call ρ β)) (left : Nat → List (Call ρ β)), Served calls hist left ∧
      (∀ t, m.todo t = (left t).map (op (fieldWriter w F date) valid str)) ∧
      m.pool = run c { clock := clock } (hist.map (fun x => op (fieldWriter w F date) valid str x.2)) ∧
      ∀ k, Written (fieldWriter w F date) ids m.pool.store k →
        ∃ d', onDisk (fieldWriter w F date) ids d m.pool.store k = .ok d' ∧
          let rows := days.flatMap fun t =>
            appended date (fun r => valid r && has str field F flt.value r) (fun u => midnight u = t) hist
          (rows = [] → Reader.openReader (rangeReader w first last prefixes (some flt)) now rnd (diskBlobsAt d'.names)
            = .error .dataNotFound) ∧
          (rows ≠ [] → ∃ l,
            Reader.openReader (rangeReader w first last prefixes (some flt)) now rnd (diskBlobsAt d'.names) = .ok (0, l) ∧
            Names l ∧ delivered hash lib {} (read d') l = rows.map .row) := by
  obtain ⟨hist1, hist2, left1, left2, s1, s2, t1, t2, hrun, -, hk⟩ := stream_field hw hby hfmt date c hc valid str field calls
    clock d ids hr records lib now rnd prefixes hallow hash F flt hflt hone hread.faithful hread.truthy ha m m h hfree (.refl m) hroom
  have h2 : hist2 = [] := s2.none (fun t => by
    have := congrArg List.length ((t1 t).symm.trans (t2 t))
    simpa using this)
  subst h2
  refine ⟨hist1, left1, s1, t1, hrun, ?_⟩
  intro k hwr
  obtain ⟨d', rows, g1, g2, g3, g4, g5⟩ := hk k (Or.inl hread.torn)
  have hrows : ∀ t ∈ days, rows t
      = appended date (fun r => valid r && has str field F flt.value r) (fun u => midnight u = t) hist1 := by
    intro t ht
    have a1 := g2 t ht
    have a2 := g3 hempty hwr t ht
    rw [List.append_nil] at a1
    exact a1.eq_of_length (Nat.le_antisymm a1.length_le a2.length_le)
  have he : days.flatMap rows = days.flatMap fun t =>
      appended date (fun r => valid r && has str field F flt.value r) (fun u => midnight u = t) hist1 :=
    List.flatMap_congr hrows
  refine ⟨d', g1, ?_, ?_⟩
  · intro hnone
    refine g4 ?_
    intro t ht
    rw [List.append_nil]
    exact List.flatMap_eq_nil_iff.1 hnone t ht
  · intro hsome
    rcases g5 with ⟨-, g6⟩ | ⟨l, g5, g6, g7⟩
    · refine absurd ?_ hsome
      rw [← he, List.flatMap_eq_nil_iff]
      exact g6
    · exact ⟨l, g5, g6, by rw [g7, he]⟩

/-- **C90 (at any moment).**  At any moment, with any calls under way, and if the disk takes no step after any
one, a reader of a range of days with a filter for a value of the field delivers, day by day, the first so many
of the valid records with this value appended on that day, in the order in which the appends obtained the
writer, or finds no data. -/
theorem C90_at_any_moment_partial (ha : Asked (fieldWriter w F date) valid field S calls records) (m : Machine ρ)
    (h : Reach c (atStart (fieldWriter w F date) valid str calls clock) m)
    (hroom : Room ls S d ids (handed m.pool.store).length) :
    ∃ (hist : List (Nat × Call ρ β)) (left : Nat → List (Call ρ β)), Served calls hist left ∧
      (∀ t, m.todo t = (left t).map (op (fieldWriter w F date) valid str)) ∧
      ∀ k, ∃ (d' : Disk) (rows : DateTime → List ρ), onDisk (fieldWriter w F date) ids d m.pool.store k = .ok d' ∧
        (∀ t ∈ days, rows t <+:
          appended date (fun r => valid r && has str field F flt.value r) (fun u => midnight u = t) hist) ∧
        ((Reader.openReader (rangeReader w first last prefixes (some flt)) now rnd (diskBlobsAt d'.names)
              = .error .dataNotFound ∧ ∀ t ∈ days, rows t = []) ∨
          ∃ l, Reader.openReader (rangeReader w first last prefixes (some flt)) now rnd (diskBlobsAt d'.names) = .ok (0, l) ∧
            Names l ∧ delivered hash lib {} (read d') l = (days.flatMap rows).map .row) := by
  obtain ⟨hist1, hist2, left1, left2, s1, s2, -, t2, -, -, hk⟩ := stream_field hw hby hfmt date c hc valid str field calls
    clock d ids hr records lib now rnd prefixes hallow hash F flt hflt hone hread.faithful hread.truthy ha _ m (.refl _) rfl h hroom
  refine ⟨hist1 ++ hist2, left2, s1.append s2, t2, ?_⟩
  intro k
  obtain ⟨d', rows, g1, g2, -, -, g5⟩ := hk k (Or.inl hread.torn)
  exact ⟨d', rows, g1, g2, g5⟩

end

/-- **C90 (which values are told apart).**  If the texts of the values of a record, and the value asked for, are
letters, digits and white space only, then `has` is that one of them is the value asked for. -/
theorem C90_exact_partial (str : β → Str) (field : ρ → Str → Targets.Field β) (F x : Str) (r : ρ)
    (hv : ∀ v ∈ (field r F).values, ∀ ch ∈ str v, Targets.Safe ch) (hx : ∀ ch ∈ x, Targets.Safe ch) :
    has str field F x r = true ↔ ∃ v ∈ (field r F).values, str v = x := by
  have hsan : ∀ s : Str, (∀ ch ∈ s, Targets.Safe ch) → sanitize s = s := by
    intro s hs
    exact sanitize_safe (fun ch hc => (Targets.validCharacters_iff ch).2 (hs ch hc))
  unfold has
  rw [List.any_eq_true]
  constructor
  · rintro ⟨v, h1, h2⟩
    rw [beq_iff_eq, hsan _ (hv v h1), hsan _ hx] at h2
    exact ⟨v, h1, h2⟩
  · rintro ⟨v, h1, h2⟩
    exact ⟨v, h1, by rw [h2]; simp⟩

/-! ## A concrete case -/

/-- The values of the fields of the demonstration records. -/
def demoField (r : Fin 10) (_ : Str) : Targets.Field Str :=
  if r = 1 then .one "UK".toList else if r = 2 then .many ["UK".toList, "FR".toList] else
  if r = 3 then .one "F-R".toList else if r = 4 then .one "BACKOUT".toList else if r = 5 then .many [] else
  if r = 6 then .many ["FR".toList, "F-R".toList] else if r = 7 then .one "UK".toList else .one "FR".toList

/-- An append by a writer that partitions by the field `F`. -/
def say (F : Str) (now : DateTime) (r : Fin 10) : Call (Fin 10) Str :=
  .append now r [F] ((demoField r F).values.map fun v => [v])

theorem say_ok {s : Setup} {F : Str} {now : DateTime} {r : Fin 10} (h1 : (s.date.getD now).valid = true)
    (h2 : demoS (midnight (s.date.getD now))) (h3 : Targets.placeholders (pathFor s demoValid now r) = [F]) :
    CallOK s demoValid demoField demoS (say F now r) := by
  refine ⟨h1, h2, ⟨by simp, by intro n; rw [h3], ?_, ?_⟩⟩
  · have : ∀ r : Fin 10, ((demoField r []).values.map fun v => [v]).Nodup := by decide
    exact this r
  · intro vs
    simp [Targets.product, eq_comm]

/-- Two threads that append, one of them also finalizes, and the attendant. -/
def fieldCalls : Nat → List (Call (Fin 10) Str)
  | 0 => [say "country".toList ⟨2024, 2, 28, 10, 0, 0⟩ 1, say "country".toList ⟨2024, 2, 28, 11, 0, 0⟩ 2, .finalize]
  | 1 => [say "country".toList ⟨2024, 2, 28, 10, 30, 0⟩ 7, say "country".toList ⟨2024, 3, 1, 0, 30, 0⟩ 8]
  | 2 => [.attend]
  | _ => []

theorem field_asked : Asked (fieldWriter zJob "country".toList none) demoValid demoField demoS fieldCalls [1, 2, 7, 8] where
  day := (demo_asked _ (Or.inl rfl)).day
  ok := by
    intro t a ha
    match t with
    | 0 =>
      simp only [fieldCalls, List.mem_cons, List.not_mem_nil, or_false] at ha
      rcases ha with rfl | rfl | rfl
      · exact say_ok (by decide +kernel) (by decide +kernel) (by decide +kernel)
      · exact say_ok (by decide +kernel) (by decide +kernel) (by decide +kernel)
      · trivial
    | 1 =>
      simp only [fieldCalls, List.mem_cons, List.not_mem_nil, or_false] at ha
      rcases ha with rfl | rfl
      · exact say_ok (by decide +kernel) (by decide +kernel) (by decide +kernel)
      · exact say_ok (by decide +kernel) (by decide +kernel) (by decide +kernel)
    | 2 =>
      simp only [fieldCalls, List.mem_cons, List.not_mem_nil, or_false] at ha
      subst ha
      trivial
    | n + 3 => cases ha
  records := by
    intro t now r names combos h
    match t with
    | 0 =>
      simp only [fieldCalls, say, List.mem_cons, List.not_mem_nil, or_false, Call.append.injEq, reduceCtorEq] at h
      rcases h with ⟨-, rfl, -⟩ | ⟨-, rfl, -⟩ <;> simp
    | 1 =>
      simp only [fieldCalls, say, List.mem_cons, List.not_mem_nil, or_false, Call.append.injEq, reduceCtorEq] at h
      rcases h with ⟨-, rfl, -⟩ | ⟨-, rfl, -⟩ <;> simp
    | 2 => simp [fieldCalls] at h
    | n + 3 => cases h

/-- The machine after the threads have moved in these turns. -/
def fieldAfter (turns : List Nat) : Option (Machine (Fin 10)) :=
  Stream.schedule demoConf (atStart (fieldWriter zJob "country".toList none) demoValid id fieldCalls [0, 1, 2, 3, 4]) turns

/-- Non-vacuity: two threads and the attendant take turns until the writer is finalized.  The record 2, with two
values, is stored twice; 7, which is not valid, in `BACKOUT`. -/
example : ∃ m, Reach demoConf (atStart (fieldWriter zJob "country".toList none) demoValid id fieldCalls [0, 1, 2, 3, 4]) m ∧
    m.owner = none ∧ m.pool.writers = [] ∧
    handed m.pool.store = [("tests/data/year_2024/month_02/day_28/by_country/country=UK".toList, [1, 49, 10]),
      ("tests/data/year_2024/month_02/day_28/by_country/country=UK/BACKOUT/".toList, [1, 55, 10]),
      ("tests/data/year_2024/month_03/day_01/by_country/country=FR".toList, [1, 56, 10]),
      ("tests/data/year_2024/month_02/day_28/by_country/country=UK".toList, [1, 50, 10]),
      ("tests/data/year_2024/month_02/day_28/by_country/country=FR".toList, [1, 50, 10])] ∧
    Room demoFolders demoS demoStart demoBlobIds (handed m.pool.store).length := by
  have h : (fieldAfter (List.replicate 4 0 ++ List.replicate 8 1 ++ List.replicate 7 2 ++ List.replicate 13 0)).any
      (fun m => m.owner.isNone && m.pool.writers.isEmpty &&
      handed m.pool.store == [("tests/data/year_2024/month_02/day_28/by_country/country=UK".toList, [1, 49, 10]),
      ("tests/data/year_2024/month_02/day_28/by_country/country=UK/BACKOUT/".toList, [1, 55, 10]),
      ("tests/data/year_2024/month_03/day_01/by_country/country=FR".toList, [1, 56, 10]),
      ("tests/data/year_2024/month_02/day_28/by_country/country=UK".toList, [1, 50, 10]),
      ("tests/data/year_2024/month_02/day_28/by_country/country=FR".toList, [1, 50, 10])]) = true := by decide +kernel
  cases he : fieldAfter (List.replicate 4 0 ++ List.replicate 8 1 ++ List.replicate 7 2 ++ List.replicate 13 0) with
  | none => rw [he] at h; cases h
  | some m =>
    rw [he] at h
    simp only [Option.any_some, Bool.and_eq_true, Option.isNone_iff_eq_none, List.isEmpty_iff, beq_iff_eq] at h
    exact ⟨m, Stream.schedule_reach demoConf _ (.refl _) he, h.1.1, h.1.2, h.2, by rw [h.2]; exact demo_room _ (by decide)⟩

theorem country_name : FieldName "country".toList := ⟨by unfold Safe; decide, by decide, by decide, by decide⟩

/-- The other hypotheses hold as well. -/
example (m : Machine (Fin 10))
    (h1 : Reach demoConf (atStart (fieldWriter zJob "country".toList none) demoValid id fieldCalls [0, 1, 2, 3, 4]) m)
    (h2 : m.owner = none) (h3 : m.pool.writers = [])
    (h4 : Room demoFolders demoS demoStart demoBlobIds (handed m.pool.store).length) (now : DateTime) (rnd : Str)
    (hash : Str → Nat) :=
  C90_filter_reads_value_partial daily
    (fun t ht => usual_by (names := ["tests".toList, "data".toList]) (by decide) (by decide) ht)
    (by decide) none demoConf rfl demoValid id demoField fieldCalls [0, 1, 2, 3, 4] demoStart demoBlobIds demo_range
    [1, 2, 7, 8] tornLib (torn_readable _) now rnd ["tests/".toList] (by decide) hash "country".toList
    ⟨"country".toList, "==".toList, "UK".toList⟩ ⟨rfl, Or.inr rfl, country_name, by decide⟩ (by unfold OneValue; decide)
    field_asked m h1 h2 h3 h4

/-! ## Where it fails -/

/-- What a reader of three days with the filter `F = x` delivers after these calls to a new writer that
partitions by `F`, if it finds data. -/
def readBack (F x : Str) (calls : List (Call (Fin 10) Str)) : Option (Option (List (Item (Fin 10)))) :=
  let p := run demoConf { clock := [0, 1, 2, 3, 4] } (calls.map (op (fieldWriter zJob F none) demoValid id))
  match onDisk (fieldWriter zJob F none) demoBlobIds demoStart p.store 1000 with
  | .error _ => none
  | .ok d =>
    match Reader.openReader (rangeReader zJob feb28 mar1 ["tests/".toList] (some ⟨F, "=".toList, x⟩)) feb28 []
        (diskBlobsAt d.names) with
    | .error .dataNotFound => some none
    | .error _ => none
    | .ok (_, l) => some (some (delivered (fun _ => 0) tornLib {} (read d) l))

def morning : DateTime := ⟨2024, 2, 28, 10, 0, 0⟩

/-- It works: the records 1 and 2 have the value. -/
example : readBack "country".toList "UK".toList [say "country".toList morning 1, say "country".toList morning 8,
    say "country".toList morning 2, .finalize] = some (some [.row 1, .row 2]) := by decide +kernel

/-- **Values with the same letters and digits are not told apart**: the value of 3 is `F-R`, that of 8 `FR`. -/
theorem C90_alike_values_fails :
    CallOK (fieldWriter zJob "country".toList none) demoValid demoField demoS (say "country".toList morning 3) ∧
    demoField 3 "country".toList = .one "F-R".toList ∧
    readBack "country".toList "FR".toList [say "country".toList morning 3, say "country".toList morning 8, .finalize]
      = some (some [.row 3, .row 8]) :=
  ⟨say_ok (by decide +kernel) (by decide +kernel) (by decide +kernel), rfl, by decide +kernel⟩

/-- **A record with two values that have the same letters and digits is delivered twice**, though it was appended
once. -/
theorem C90_delivered_twice_fails :
    CallOK (fieldWriter zJob "country".toList none) demoValid demoField demoS (say "country".toList morning 6) ∧
    demoField 6 "country".toList = .many ["FR".toList, "F-R".toList] ∧
    readBack "country".toList "FR".toList [say "country".toList morning 6, .finalize] = some (some [.row 6, .row 6]) :=
  ⟨say_ok (by decide +kernel) (by decide +kernel) (by decide +kernel), rfl, by decide +kernel⟩

/-- **A valid record whose value is `BACKOUT` is stored and never delivered.** -/
theorem C90_backout_value_fails :
    CallOK (fieldWriter zJob "country".toList none) demoValid demoField demoS (say "country".toList morning 4) ∧
    demoValid 4 = true ∧ demoField 4 "country".toList = .one "BACKOUT".toList ∧
    readBack "country".toList "BACKOUT".toList [say "country".toList morning 4, .finalize] = some none :=
  ⟨say_ok (by decide +kernel) (by decide +kernel) (by decide +kernel), rfl, rfl, by decide +kernel⟩

/-- **A valid record with an empty list for the field is stored nowhere**, and the append does not fail. -/
theorem C90_no_value_fails :
    CallOK (fieldWriter zJob "country".toList none) demoValid demoField demoS (say "country".toList morning 5) ∧
    demoValid 5 = true ∧ demoField 5 "country".toList = .many [] ∧
    (run demoConf { clock := [0, 1, 2, 3, 4] } ([say "country".toList morning 5, .finalize].map
      (op (fieldWriter zJob "country".toList none) demoValid id))).store = [] :=
  ⟨say_ok (by decide +kernel) (by decide +kernel) (by decide +kernel), rfl, rfl, by decide +kernel⟩

/-- **If the name of the field has an underscore the filter is dropped**: records with other values are
delivered. -/
theorem C90_underscore_fails :
    CallOK (fieldWriter zJob "home_country".toList none) demoValid demoField demoS (say "home_country".toList morning 8) ∧
    demoField 8 "home_country".toList = .one "FR".toList ∧
    readBack "home_country".toList "UK".toList [say "home_country".toList morning 8, .finalize] = some (some [.row 8]) :=
  ⟨say_ok (by decide +kernel) (by decide +kernel) (by decide +kernel), rfl, by decide +kernel⟩

/-- **If the field has the name of a part of the date the data is partitioned by the date instead**, and the
filter finds nothing. -/
theorem C90_date_name_fails :
    CallOK (fieldWriter zJob "HH".toList none) demoValid demoField demoS (.append morning 1 [] [[]]) ∧
    demoField 1 "HH".toList = .one "UK".toList ∧
    readBack "HH".toList "UK".toList [.append morning 1 [] [[]], .finalize] = some none ∧
    readBack "HH".toList "10".toList [.append morning 1 [] [[]], .finalize] = some (some [.row 1]) := by
  refine ⟨⟨by decide +kernel, by decide +kernel, ⟨by simp, ?_, by simp, by simp [Targets.product]⟩⟩, rfl, by decide +kernel,
    by decide +kernel⟩
  have : Targets.placeholders (pathFor (fieldWriter zJob "HH".toList none) demoValid morning 1) = [] := by decide +kernel
  intro n
  rw [this]

end Mabel.StreamStorage
