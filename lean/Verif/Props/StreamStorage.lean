import Verif.Lemmas.StreamReach
import Verif.Lemmas.Layouts

/-!
# Stream writers, from the calls to what a reader of a range of days delivers: C89
-/

namespace Mabel.StreamStorage
open Mabel.Py Mabel.Paths Mabel.Naming Mabel.Spec Mabel.Listing Mabel.EndToEnd Mabel.Dates Mabel.History
open Mabel.Blobs (Lib Faithful Torn delivered Item readBlob Names formatOf BlobName)
open Mabel.WriterInit (Folders Nested)
open Mabel.Stream (Conf Machine Reach Pool run)
open Mabel.Disk hiding Bytes
variable {ρ β : Type}

/-! ## The conditions -/

/-- The stream writer for the dataset and the partitions of a job. -/
def dayWriter (w : Job) (date : Option DateTime) : Setup := ⟨w.dataset, w.partitions, date, w.format⟩

/-- The stream writer that also partitions by the hour. -/
def hourWriter (w : Job) (date : Option DateTime) : Setup :=
  ⟨w.dataset, w.partitions ++ ["by_hour/hour={HH}".toList], date, w.format⟩

/-- There is room on the disk: nothing in the folders of the days `S`, and identifiers for `n` blobs, one coming
before the other (they begin with the time). -/
structure Room (ls : List (List Piece)) (S : DateTime → Prop) (d : Disk) (ids : List Str) (n : Nat) : Prop where
  fresh : ∀ t, S t → Fresh (folderOf ls t) d
  nodup : d.names.Nodup
  enough : n ≤ ids.length
  hex : ∀ i ∈ ids, HexId i ∧ i ≠ []
  order : ids.Pairwise Before

/-- The records can be written and read: the libraries give back what they were given, refuse or cut short
what is cut short, and no record is taken for nothing. -/
structure Readable (codec : Writer.Codec ρ) (lib : Lib ρ) (records : List ρ) : Prop where
  faithful : Faithful codec lib records
  torn : Torn codec lib records
  truthy : ∀ r ∈ records, lib.truthy r = true

/-- The days from the first to the last, among the days `S`. -/
structure Range (S : DateTime → Prop) (first last : DateTime) (days : List DateTime) : Prop where
  start : Day first
  stop : Day last
  order : first.seconds ≤ last.seconds
  all : DaysOf first last days
  among : ∀ t ∈ days, S t

/-- What threads ask of a stream writer: calls that can be asked, with readable records. -/
structure Asked (s : Setup) (valid : ρ → Bool) (field : ρ → Str → Targets.Field β) (S : DateTime → Prop)
    (calls : Nat → List (Call ρ β)) (records : List ρ) : Prop where
  day : ∀ t, S t → Day t
  ok : ∀ t, ∀ a ∈ calls t, CallOK s valid field S a
  records : ∀ t now r names combos, Call.append now r names combos ∈ calls t → r ∈ records

/-- The stream writer before the first call. -/
def atStart (s : Setup) (valid : ρ → Bool) (str : β → Str) (calls : Nat → List (Call ρ β)) (clock : List Int) : Machine ρ :=
  { pool := { clock := clock }, todo := fun t => (calls t).map (op s valid str) }

theorem appended_congr {date : Option DateTime} {valid : ρ → Bool} {p q : DateTime → Prop} [DecidablePred p] [DecidablePred q]
    (h : ∀ u, p u ↔ q u) (hist : List (Nat × Call ρ β)) : appended date valid p hist = appended date valid q hist := by
  unfold appended
  congr 1
  funext x
  obtain ⟨t, a⟩ := x
  cases a with
  | append now r names combos => simp only [h]
  | attend => rfl
  | finalize => rfl

theorem plain_congr (date : Option DateTime) (valid : ρ → Bool) (t : DateTime) (hist : List (Nat × Call ρ β)) :
    appended date valid (fun u => midnight u = t ∧ folderOf [] u = ([] : List Str)) hist
      = appended date valid (fun u => midnight u = t) hist :=
  appended_congr (fun u => by simp [folderOf]) hist

theorem two_inj {a b : Nat} (ha : a < 24) (hb : b < 24) (h : two a = two b) : a = b := by
  have h1 := two_lt (a := a) (b := b) (by omega) (by omega)
  have h2 := two_lt (a := b) (b := a) (by omega) (by omega)
  rw [h] at h1 h2
  have h3 : ¬ two b < two b := List.lt_irrefl _
  have h4 : ¬ a < b := fun hab => h3 (h1.2 hab)
  have h5 : ¬ b < a := fun hab => h3 (h2.2 hab)
  omega

theorem day_template {w : Job} {ls : List (List Piece)} (hw : Daily w ls) (date : Option DateTime) {t : DateTime} (ht : Day t) :
    (dayWriter w date).template = join ['/'] ((ls ++ []).map template) := by
  have := (hw.ok t ht.valid).path
  rw [List.append_nil]
  exact this

theorem hour_template {w : Job} {ls : List (List Piece)} (hw : Daily w ls) (date : Option DateTime) {t : DateTime} (ht : Day t) :
    (hourWriter w date).template = join ['/'] ((ls ++ hourPieces).map template) := by
  have h := (hw.ok t ht.valid).path
  have hne : ls.map template ≠ [] := by simpa using (hw.ok t ht.valid).ne
  have e : (ls ++ hourPieces).map template = (ls.map template ++ ["by_hour".toList]) ++ ["hour={HH}".toList] := by
    simp [hourPieces, template, Field.token]
  have h : (if w.partitions = [] then w.dataset else w.dataset ++ ['/'] ++ join ['/'] w.partitions)
      = join ['/'] (ls.map template) := h
  rw [e, join_snoc _ _ (by simp), join_snoc _ _ hne, ← h]
  unfold hourWriter Setup.template WriterInit.withPartitions
  simp only
  rw [if_neg (by simp)]
  show w.dataset ++ ['/'] ++ join ['/'] (w.partitions ++ [_]) = (if w.partitions = [] then _ else _) ++ _ ++ _
  by_cases hp : w.partitions = []
  · rw [if_pos hp, hp]
    simp [join]
  · rw [if_neg hp, join_snoc _ _ hp]
    simp

/-! ## C89, a folder for each day -/

section
variable {w : Job} {ls : List (List Piece)} (hw : Daily w ls) (hn : Nested ls) (hfmt : w.format ≠ "text".toList)
  (date : Option DateTime) (c : Conf ρ) (hc : c.blob.format = formatOf w.format) (valid : ρ → Bool) (str : β → Str)
  (field : ρ → Str → Targets.Field β) {S : DateTime → Prop} (calls : Nat → List (Call ρ β)) (clock : List Int)
  (d : Disk) (ids : List Str) {first last : DateTime} {days : List DateTime} (hr : Range S first last days)
  (records : List ρ) (lib : Lib ρ) (hread : Readable c.blob.codec lib records) (now : DateTime) (rnd : Str)
  (prefixes : List Str) (hallow : Reader.allowed prefixes w.dataset = true) (hash : Str → Nat)
include hw hn hfmt hc hr hread hallow

/-- **C89 (finalized is kept).**  Threads call a stream writer; at one moment no call is under way and no writer
is open, as after `finalize`.  At any later moment, with any calls under way and the disk at any step after
those for what was stored by then, even if it is the last it takes, a reader of a range of days delivers, day
by day, the records appended before, in the order of the appends, and then the first so many of those
appended since; records that do not pass the validation are not among them.  It finds no data only if there is
none of this. -/
theorem C89_finalized_stays (ha : Asked (dayWriter w date) valid field S calls records) (m1 m2 : Machine ρ)
    (h1 : Reach c (atStart (dayWriter w date) valid str calls clock) m1) (hfree : m1.owner = none)
    (hempty : m1.pool.writers = []) (h2 : Reach c m1 m2)
    (hroom : Room ls S d ids (handed m2.pool.store).length) :
    ∃ (hist1 hist2 : List (Nat × Call ρ β)) (left1 left2 : Nat → List (Call ρ β)),
      Served calls hist1 left1 ∧ Served left1 hist2 left2 ∧
      (∀ t, m2.todo t = (left2 t).map (op (dayWriter w date) valid str)) ∧
      m1.pool = run c { clock := clock } (hist1.map (fun x => op (dayWriter w date) valid str x.2)) ∧
      ∀ k, Written (dayWriter w date) ids m1.pool.store k →
        ∃ (d' : Disk) (rows : DateTime → List ρ), onDisk (dayWriter w date) ids d m2.pool.store k = .ok d' ∧
          (∀ t ∈ days, appended date valid (fun u => midnight u = t) hist1 <+: rows t ∧
            rows t <+: appended date valid (fun u => midnight u = t) (hist1 ++ hist2)) ∧
          ((Reader.openReader (rangeReader w first last prefixes) now rnd (diskBlobsAt d'.names) = .error .dataNotFound ∧
              ∀ t ∈ days, rows t = []) ∨
            ∃ l, Reader.openReader (rangeReader w first last prefixes) now rnd (diskBlobsAt d'.names) = .ok (0, l) ∧
              Names l ∧ delivered hash lib {} (read d') l = (days.flatMap rows).map .row) := by
  obtain ⟨hist1, hist2, left1, left2, s1, s2, t1, t2, -, hrun, -, hk⟩ := stream_timed hw hfmt (layout_plain hw hn) timed_plain
    (dayWriter w date) rfl (day_template hw date hr.start) c hc valid str field ha.day calls ha.ok clock m1 m2 h1 hfree h2 d
    hroom.fresh hroom.nodup ids hroom.enough hroom.hex hroom.order hr.start hr.stop hr.order hr.all hr.among records
    ha.records lib hread.faithful hread.truthy now rnd prefixes hallow hash
  refine ⟨hist1, hist2, left1, left2, s1, s2, t2, hrun, ?_⟩
  intro k hwr
  obtain ⟨d', rows, g1, g2, g3, -, g5⟩ := hk k (Or.inl hread.torn)
  refine ⟨d', fun t => rows t [], g1, ?_, ?_⟩
  · intro t ht
    constructor
    · have := g3 hempty hwr t ht [] (by simp)
      rw [plain_congr] at this
      exact this
    · have := g2 t ht [] (by simp)
      rw [plain_congr] at this
      exact this
  · rcases g5 with ⟨g5, g6⟩ | ⟨l, g5, g6, g7⟩
    · exact Or.inl ⟨g5, fun t ht => g6 t ht [] (by simp)⟩
    · refine Or.inr ⟨l, g5, g6, ?_⟩
      rw [g7]
      simp

/-- **C89 (streamed is read).**  Threads call a stream writer and, at a moment when no call is under way and no
writer is open, as after `finalize`, the disk has taken all its steps.  A reader of a range of days then
delivers, day by day, exactly the valid records appended on that day (or for it, if the writer has a date), in
the order in which the appends obtained the writer; it finds no data if there are none. -/
theorem C89_streamed_is_read (ha : Asked (dayWriter w date) valid field S calls records) (m : Machine ρ)
    (h : Reach c (atStart (dayWriter w date) valid str calls clock) m) (hfree : m.owner = none)
    (hempty : m.pool.writers = []) (hroom : Room ls S d ids (handed m.pool.store).length) :
    ∃ (hist : List (Nat × Call ρ β)) (left : Nat → List (Call ρ β)), Served calls hist left ∧
      (∀ t, m.todo t = (left t).map (op (dayWriter w date) valid str)) ∧
      m.pool = run c { clock := clock } (hist.map (fun x => op (dayWriter w date) valid str x.2)) ∧
      ∀ k, Written (dayWriter w date) ids m.pool.store k →
        ∃ d', onDisk (dayWriter w date) ids d m.pool.store k = .ok d' ∧
          let rows := days.flatMap fun t => appended date valid (fun u => midnight u = t) hist
          (rows = [] →
            Reader.openReader (rangeReader w first last prefixes) now rnd (diskBlobsAt d'.names) = .error .dataNotFound) ∧
          (rows ≠ [] → ∃ l,
            Reader.openReader (rangeReader w first last prefixes) now rnd (diskBlobsAt d'.names) = .ok (0, l) ∧ Names l ∧
            delivered hash lib {} (read d') l = rows.map .row) := by
  obtain ⟨hist1, hist2, left1, left2, s1, s2, t1, t2, -, hrun, -, hk⟩ := stream_timed hw hfmt (layout_plain hw hn) timed_plain
    (dayWriter w date) rfl (day_template hw date hr.start) c hc valid str field ha.day calls ha.ok clock m m h hfree (.refl m) d
    hroom.fresh hroom.nodup ids hroom.enough hroom.hex hroom.order hr.start hr.stop hr.order hr.all hr.among records
    ha.records lib hread.faithful hread.truthy now rnd prefixes hallow hash
  have h2 : hist2 = [] := s2.none (fun t => by
    have := congrArg List.length ((t1 t).symm.trans (t2 t))
    simpa using this)
  subst h2
  refine ⟨hist1, left1, s1, t1, hrun, ?_⟩
  intro k hwr
  obtain ⟨d', rows, g1, g2, g3, g4, g5⟩ := hk k (Or.inl hread.torn)
  have hrows : ∀ t ∈ days, rows t [] = appended date valid (fun u => midnight u = t) hist1 := by
    intro t ht
    have a1 := g2 t ht [] (by simp)
    have a2 := g3 hempty hwr t ht [] (by simp)
    rw [List.append_nil, plain_congr] at a1
    rw [plain_congr] at a2
    exact a1.eq_of_length (Nat.le_antisymm a1.length_le a2.length_le)
  refine ⟨d', g1, ?_, ?_⟩
  · intro hnone
    refine g4 ?_
    intro t ht sb hsb
    rw [List.mem_singleton.1 hsb, List.append_nil, plain_congr]
    exact List.flatMap_eq_nil_iff.1 hnone t ht
  · intro hsome
    have he : (days.flatMap fun t => [[]].flatMap (rows t))
        = days.flatMap fun t => appended date valid (fun u => midnight u = t) hist1 := by
      apply List.flatMap_congr
      intro t ht
      rw [← hrows t ht]
      simp
    rcases g5 with ⟨-, g6⟩ | ⟨l, g5, g6, g7⟩
    · refine absurd ?_ hsome
      rw [List.flatMap_eq_nil_iff]
      intro t ht
      rw [← hrows t ht]
      exact g6 t ht [] (by simp)
    · exact ⟨l, g5, g6, by rw [g7, he]⟩

/-- **C89 (at any moment).**  At any moment, with any calls under way, and if the disk takes no step after any
one, a reader of a range of days delivers, day by day, the first so many of the valid records appended on that
day, in the order in which the appends obtained the writer, or finds no data. -/
theorem C89_at_any_moment (ha : Asked (dayWriter w date) valid field S calls records) (m : Machine ρ)
    (h : Reach c (atStart (dayWriter w date) valid str calls clock) m)
    (hroom : Room ls S d ids (handed m.pool.store).length) :
    ∃ (hist : List (Nat × Call ρ β)) (left : Nat → List (Call ρ β)), Served calls hist left ∧
      (∀ t, m.todo t = (left t).map (op (dayWriter w date) valid str)) ∧
      ∀ k, ∃ (d' : Disk) (rows : DateTime → List ρ), onDisk (dayWriter w date) ids d m.pool.store k = .ok d' ∧
        (∀ t ∈ days, rows t <+: appended date valid (fun u => midnight u = t) hist) ∧
        ((Reader.openReader (rangeReader w first last prefixes) now rnd (diskBlobsAt d'.names) = .error .dataNotFound ∧
            ∀ t ∈ days, rows t = []) ∨
          ∃ l, Reader.openReader (rangeReader w first last prefixes) now rnd (diskBlobsAt d'.names) = .ok (0, l) ∧
            Names l ∧ delivered hash lib {} (read d') l = (days.flatMap rows).map .row) := by
  obtain ⟨hist1, hist2, left1, left2, s1, s2, t2, -, g⟩ := C89_finalized_stays hw hn hfmt date c hc valid str field calls
    clock d ids hr records lib hread now rnd prefixes hallow hash ha _ m (.refl _) rfl rfl h hroom
  refine ⟨hist1 ++ hist2, left2, s1.append s2, t2, ?_⟩
  intro k
  obtain ⟨d', rows, g1, g2, g3⟩ := g k (by
    intro ops hops
    have : ops = [] := by
      have e : diskOps (dayWriter w date) ids [] = .ok [] := by
        unfold diskOps items handed
        simp only [List.filterMap_nil, List.zip_nil_right]
        rfl
      rw [show (atStart (dayWriter w date) valid str calls clock).pool.store = [] from rfl, e] at hops
      cases hops
      rfl
    rw [this]
    exact Nat.zero_le _)
  exact ⟨d', rows, g1, fun t ht => (g2 t ht).2, g3⟩

end

/-! ## C89, folders for the hours of each day -/

theorem appended_congr_valid {date : Option DateTime} {valid : ρ → Bool} {p q : DateTime → Prop} [DecidablePred p]
    [DecidablePred q] (h : ∀ u, u.valid = true → (p u ↔ q u)) (hist : List (Nat × Call ρ β))
    (hv : ∀ t now r names combos, (t, Call.append now r names combos) ∈ hist → (date.getD now).valid = true) :
    appended date valid p hist = appended date valid q hist := by
  unfold appended
  apply List.filterMap_congr
  rintro ⟨t, a⟩ hx
  cases a with
  | append now r names combos => simp only [h _ (hv t now r names combos hx)]
  | attend => rfl
  | finalize => rfl

theorem hour_iff {u : DateTime} (hu : u.valid = true) {h : Nat} (hh : h < 24) :
    folderOf hourPieces u = hourFolders h ↔ u.hour = h := by
  rw [hour_of]
  have := (DateTime.valid_iff u).1 hu
  constructor
  · intro e
    simp only [hourFolders, List.cons.injEq, List.append_cancel_left_eq, and_true, true_and] at e
    exact two_inj (by omega) hh e
  · rintro rfl
    rfl

theorem asked_valid {s : Setup} {valid : ρ → Bool} {field : ρ → Str → Targets.Field β} {S : DateTime → Prop}
    {calls left : Nat → List (Call ρ β)} {records : List ρ} (ha : Asked s valid field S calls records)
    {hist : List (Nat × Call ρ β)} (hs : Served calls hist left) :
    ∀ t now r names combos, (t, Call.append now r names combos) ∈ hist → (s.date.getD now).valid = true := by
  intro t now r names combos hx
  exact (ha.ok t _ (hs.mem hx)).1

theorem hour_congr {s : Setup} {valid : ρ → Bool} {field : ρ → Str → Targets.Field β} {S : DateTime → Prop}
    {calls left : Nat → List (Call ρ β)} {records : List ρ} (ha : Asked s valid field S calls records)
    {hist : List (Nat × Call ρ β)} (hs : Served calls hist left) {t : DateTime} {h : Nat} (hh : h < 24) :
    appended s.date valid (fun u => midnight u = t ∧ folderOf hourPieces u = hourFolders h) hist
      = appended s.date valid (fun u => midnight u = t ∧ u.hour = h) hist :=
  appended_congr_valid (fun u hu => by rw [hour_iff hu hh]) hist (asked_valid ha hs)

section
variable {w : Job} {ls : List (List Piece)} (hw : Daily w ls)
  (hby : ∀ t, Day t → contains "by_".toList (join ['/'] (folderOf ls t)) = false) (hfmt : w.format ≠ "text".toList)
  (date : Option DateTime) (c : Conf ρ) (hc : c.blob.format = formatOf w.format) (valid : ρ → Bool) (str : β → Str)
  (field : ρ → Str → Targets.Field β) {S : DateTime → Prop} (calls : Nat → List (Call ρ β)) (clock : List Int)
  (d : Disk) (ids : List Str) {first last : DateTime} {days : List DateTime} (hr : Range S first last days)
  (records : List ρ) (lib : Lib ρ) (hread : Readable c.blob.codec lib records) (now : DateTime) (rnd : Str)
  (prefixes : List Str) (hallow : Reader.allowed prefixes w.dataset = true) (hash : Str → Nat)
include hw hby hfmt hc hr hread hallow

/-- **C89 (by the hour, finalized is kept).**  As `C89_finalized_stays`, of a writer that partitions each day by
the hour: what is delivered of a day is in the order of the hours and, within an hour, of the appends. -/
theorem C89_hours_stay (ha : Asked (hourWriter w date) valid field S calls records) (m1 m2 : Machine ρ)
    (h1 : Reach c (atStart (hourWriter w date) valid str calls clock) m1) (hfree : m1.owner = none)
    (hempty : m1.pool.writers = []) (h2 : Reach c m1 m2)
    (hroom : Room ls S d ids (handed m2.pool.store).length) :
    ∃ (hist1 hist2 : List (Nat × Call ρ β)) (left1 left2 : Nat → List (Call ρ β)),
      Served calls hist1 left1 ∧ Served left1 hist2 left2 ∧
      (∀ t, m2.todo t = (left2 t).map (op (hourWriter w date) valid str)) ∧
      m1.pool = run c { clock := clock } (hist1.map (fun x => op (hourWriter w date) valid str x.2)) ∧
      ∀ k, Written (hourWriter w date) ids m1.pool.store k →
        ∃ (d' : Disk) (rows : DateTime → Nat → List ρ), onDisk (hourWriter w date) ids d m2.pool.store k = .ok d' ∧
          (∀ t ∈ days, ∀ h < 24, appended date valid (fun u => midnight u = t ∧ u.hour = h) hist1 <+: rows t h ∧
            rows t h <+: appended date valid (fun u => midnight u = t ∧ u.hour = h) (hist1 ++ hist2)) ∧
          ((Reader.openReader (rangeReader w first last prefixes) now rnd (diskBlobsAt d'.names) = .error .dataNotFound ∧
              ∀ t ∈ days, ∀ h < 24, rows t h = []) ∨
            ∃ l, Reader.openReader (rangeReader w first last prefixes) now rnd (diskBlobsAt d'.names) = .ok (0, l) ∧
              Names l ∧
              delivered hash lib {} (read d') l = (days.flatMap fun t => (List.range 24).flatMap (rows t)).map .row) := by
  obtain ⟨hist1, hist2, left1, left2, s1, s2, t1, t2, -, hrun, -, hk⟩ := stream_timed hw hfmt (layout_hour hw hby) timed_hour
    (hourWriter w date) rfl (hour_template hw date hr.start) c hc valid str field ha.day calls ha.ok clock m1 m2 h1 hfree h2 d
    hroom.fresh hroom.nodup ids hroom.enough hroom.hex hroom.order hr.start hr.stop hr.order hr.all hr.among records
    ha.records lib hread.faithful hread.truthy now rnd prefixes hallow hash
  refine ⟨hist1, hist2, left1, left2, s1, s2, t2, hrun, ?_⟩
  intro k hwr
  obtain ⟨d', rows, g1, g2, g3, -, g5⟩ := hk k (Or.inl hread.torn)
  have hmem : ∀ h < 24, hourFolders h ∈ (List.range 24).map hourFolders :=
    fun h hh => List.mem_map.2 ⟨h, List.mem_range.2 hh, rfl⟩
  refine ⟨d', fun t h => rows t (hourFolders h), g1, ?_, ?_⟩
  · intro t ht h hh
    constructor
    · have := g3 hempty hwr t ht _ (hmem h hh)
      rw [hour_congr ha s1 hh] at this
      exact this
    · have := g2 t ht _ (hmem h hh)
      rw [hour_congr ha (s1.append s2) hh] at this
      exact this
  · rcases g5 with ⟨g5, g6⟩ | ⟨l, g5, g6, g7⟩
    · exact Or.inl ⟨g5, fun t ht h hh => g6 t ht _ (hmem h hh)⟩
    · refine Or.inr ⟨l, g5, g6, ?_⟩
      rw [g7]
      simp only [List.flatMap_map]

/-- **C89 (by the hour, streamed is read).**  As `C89_streamed_is_read`, of a writer that partitions each day by
the hour. -/
theorem C89_hours_are_read (ha : Asked (hourWriter w date) valid field S calls records) (m : Machine ρ)
    (h : Reach c (atStart (hourWriter w date) valid str calls clock) m) (hfree : m.owner = none)
    (hempty : m.pool.writers = []) (hroom : Room ls S d ids (handed m.pool.store).length) :
    ∃ (hist : List (Nat × Call ρ β)) (left : Nat → List (Call ρ β)), Served calls hist left ∧
      (∀ t, m.todo t = (left t).map (op (hourWriter w date) valid str)) ∧
      m.pool = run c { clock := clock } (hist.map (fun x => op (hourWriter w date) valid str x.2)) ∧
      ∀ k, Written (hourWriter w date) ids m.pool.store k →
        ∃ d', onDisk (hourWriter w date) ids d m.pool.store k = .ok d' ∧
          let rows := days.flatMap fun t => (List.range 24).flatMap fun h =>
            appended date valid (fun u => midnight u = t ∧ u.hour = h) hist
          (rows = [] →
            Reader.openReader (rangeReader w first last prefixes) now rnd (diskBlobsAt d'.names) = .error .dataNotFound) ∧
          (rows ≠ [] → ∃ l,
            Reader.openReader (rangeReader w first last prefixes) now rnd (diskBlobsAt d'.names) = .ok (0, l) ∧ Names l ∧
            delivered hash lib {} (read d') l = rows.map .row) := by
  obtain ⟨hist1, hist2, left1, left2, s1, s2, t1, t2, -, hrun, -, hk⟩ := stream_timed hw hfmt (layout_hour hw hby) timed_hour
    (hourWriter w date) rfl (hour_template hw date hr.start) c hc valid str field ha.day calls ha.ok clock m m h hfree (.refl m) d
    hroom.fresh hroom.nodup ids hroom.enough hroom.hex hroom.order hr.start hr.stop hr.order hr.all hr.among records
    ha.records lib hread.faithful hread.truthy now rnd prefixes hallow hash
  have h2 : hist2 = [] := s2.none (fun t => by
    have := congrArg List.length ((t1 t).symm.trans (t2 t))
    simpa using this)
  subst h2
  refine ⟨hist1, left1, s1, t1, hrun, ?_⟩
  intro k hwr
  have hmem : ∀ h < 24, hourFolders h ∈ (List.range 24).map hourFolders :=
    fun h hh => List.mem_map.2 ⟨h, List.mem_range.2 hh, rfl⟩
  obtain ⟨d', rows, g1, g2, g3, g4, g5⟩ := hk k (Or.inl hread.torn)
  have hrows : ∀ t ∈ days, ∀ h < 24,
      rows t (hourFolders h) = appended date valid (fun u => midnight u = t ∧ u.hour = h) hist1 := by
    intro t ht h hh
    have a1 := g2 t ht _ (hmem h hh)
    have a2 := g3 hempty hwr t ht _ (hmem h hh)
    rw [List.append_nil, hour_congr ha s1 hh] at a1
    rw [hour_congr ha s1 hh] at a2
    exact a1.eq_of_length (Nat.le_antisymm a1.length_le a2.length_le)
  have he : (days.flatMap fun t => ((List.range 24).map hourFolders).flatMap (rows t))
      = days.flatMap fun t => (List.range 24).flatMap fun h =>
          appended date valid (fun u => midnight u = t ∧ u.hour = h) hist1 := by
    apply List.flatMap_congr
    intro t ht
    rw [List.flatMap_map]
    apply List.flatMap_congr
    intro h hh
    exact hrows t ht h (List.mem_range.1 hh)
  refine ⟨d', g1, ?_, ?_⟩
  · intro hnone
    refine g4 ?_
    intro t ht sb hsb
    obtain ⟨h, hh, rfl⟩ := List.mem_map.1 hsb
    rw [List.append_nil, hour_congr ha s1 (List.mem_range.1 hh)]
    exact List.flatMap_eq_nil_iff.1 (List.flatMap_eq_nil_iff.1 hnone t ht) h hh
  · intro hsome
    rcases g5 with ⟨-, g6⟩ | ⟨l, g5, g6, g7⟩
    · refine absurd ?_ hsome
      rw [← he, List.flatMap_eq_nil_iff]
      intro t ht
      rw [List.flatMap_eq_nil_iff]
      exact g6 t ht
    · exact ⟨l, g5, g6, by rw [g7, he]⟩

end

/-- The usual partitions of a dataset whose name has no `by_` can be partitioned by the hour. -/
theorem usual_by {names : List Str} (hne : names ≠ []) (hby : contains "by_".toList (join ['/'] names) = false)
    {t : DateTime} (ht : Day t) : contains "by_".toList (join ['/'] (folderOf (usualFolders names) t)) = false := by
  have hb := usual_base names hne ⟨[], [], t, [], []⟩ ht
  rw [base_at] at hb
  rw [hb]
  have hv := (DateTime.valid_iff t).1 ht.valid
  have hdays := days_lt t.year t.month
  have e : join ['/'] names ++ ("/year_".toList ++ (four t.year ++ ("/month_".toList ++
      (two t.month ++ ("/day_".toList ++ two t.day)))))
      = join ['/'] names ++ '/' :: (("year_".toList ++ four t.year) ++ '/' :: (("month_".toList ++ two t.month) ++
        '/' :: ("day_".toList ++ two t.day))) := by simp
  rw [e]
  have b1 : 'b' ∉ "year_".toList ++ four t.year :=
    digit_ne (l := [t.year / 1000, t.year / 100 % 10, t.year / 10 % 10, t.year % 10]) (by decide) (by decide)
      (by simp; omega)
  have b2 : 'b' ∉ "month_".toList ++ two t.month :=
    digit_ne (l := [t.month / 10, t.month % 10]) (by decide) (by decide) (by simp; omega)
  have b3 : 'b' ∉ "day_".toList ++ two t.day :=
    digit_ne (l := [t.day / 10, t.day % 10]) (by decide) (by decide) (by simp; omega)
  rw [← Bool.not_eq_true, contains_slash (by decide) (by decide), contains_slash (by decide) (by decide),
    contains_slash (by decide) (by decide), hby, contains_of_not_mem (c := 'b') (by decide) b1,
    contains_of_not_mem (c := 'b') (by decide) b2, contains_of_not_mem (c := 'b') (by decide) b3]
  simp

/-! ## A concrete case -/

/-- The demonstration libraries, with a Parquet that ends in a mark. -/
def tornCodec : Writer.Codec (Fin 10) :=
  { Blobs.demoCodec with parquet := fun g => g.map (fun r => (r.val + 1).toUInt8) ++ [0] }

def tornLib : Lib (Fin 10) :=
  { Blobs.demoLib' with
    parquet := fun b => if b.getLast? = some 0 then .ok (b.dropLast.map (fun x => Fin.ofNat 10 (x.toNat - 1))) else .error .valueError }

theorem torn_readable (records : List (Fin 10)) : Readable tornCodec tornLib records where
  truthy := fun _ _ => rfl
  faithful :=
    { json := (Blobs.demo_faithful records).json
      no_lf := (Blobs.demo_faithful records).no_lf
      no_cr := (Blobs.demo_faithful records).no_cr
      zstd := (Blobs.demo_faithful records).zstd
      parquet := by
        intro g _
        have h : ∀ r : Fin 10, Fin.ofNat 10 (((r.val + 1).toUInt8).toNat - 1) = r := by decide
        show (if (g.map (fun r : Fin 10 => (r.val + 1).toUInt8) ++ [0]).getLast? = some 0 then _ else _) = _
        rw [if_pos (by simp)]
        show Except.ok (((g.map (fun r : Fin 10 => (r.val + 1).toUInt8) ++ [0]).dropLast).map _) = _
        rw [List.dropLast_concat, List.map_map]
        congr 1
        exact (List.map_congr_left (fun r _ => h r)).trans (List.map_id _) }
  torn :=
    { json := by
        intro r _ c hc hne hnil
        refine absurd (hc.eq_of_length ?_) hne
        have h1 := hc.length_le
        have h2 := List.length_pos_iff.2 hnil
        have h3 : (tornCodec.serialise r).length = 1 := rfl
        omega
      zstd := by
        intro b c hc
        cases c with
        | nil => exact Or.inl ⟨_, rfl⟩
        | cons x c =>
          have h : x :: c <+: 1 :: b := hc
          rw [List.cons_prefix_cons] at h
          obtain ⟨rfl, h⟩ := h
          exact Or.inr ⟨c, rfl, h⟩
      parquet := by
        intro g _ c hc hne
        refine ⟨.valueError, ?_⟩
        show (if c.getLast? = some 0 then _ else _) = _
        rw [if_neg]
        have hc : c <+: g.map (fun r => (r.val + 1).toUInt8) ++ [0] := hc
        have hne : c ≠ g.map (fun r => (r.val + 1).toUInt8) ++ [0] := hne
        intro hl
        have h0 : (0 : UInt8) ∈ c := List.mem_of_getLast? hl
        have hp : c <+: g.map (fun r => (r.val + 1).toUInt8) := by
          rcases List.prefix_concat_iff.1 hc with h | h
          · exact absurd h hne
          · exact h
        obtain ⟨r, -, hr⟩ := List.mem_map.1 (hp.subset h0)
        revert hr
        revert r
        decide }

/-- At most two writers in the pool, idle after 5 seconds, blobs of about two records. -/
def demoConf : Conf (Fin 10) := { blob := { zConfig with codec := tornCodec }, poolSize := 2, idle := 5 }

/-- Two threads that append, one of them also finalizes, and the attendant.  The record 7 is not valid. -/
def demoCalls : Nat → List (Call (Fin 10) Unit)
  | 0 => [.append ⟨2024, 2, 28, 10, 0, 0⟩ 1 [] [[]], .append ⟨2024, 2, 28, 11, 59, 59⟩ 2 [] [[]],
      .append ⟨2024, 3, 1, 0, 30, 0⟩ 3 [] [[]], .finalize]
  | 1 => [.append ⟨2024, 2, 28, 11, 0, 0⟩ 7 [] [[]], .append ⟨2024, 2, 28, 11, 30, 0⟩ 4 [] [[]]]
  | 2 => [.attend]
  | _ => []

def demoValid (r : Fin 10) : Bool := r ≠ 7

def demoS (t : DateTime) : Prop := t ∈ [feb28, feb29, mar1]

instance : DecidablePred demoS := fun t => inferInstanceAs (Decidable (t ∈ [feb28, feb29, mar1]))

theorem demo_range : Range demoS feb28 mar1 [feb28, feb29, mar1] where
  start := feb28_day
  stop := mar1_day
  order := by decide +kernel
  all := three_days
  among := fun _ h => h

def demoBlobIds : List Str := ["1a-1".toList, "1b-1".toList, "1c-1".toList, "1d-1".toList, "1e-1".toList, "2a-1".toList]

theorem demo_room (n : Nat) (hn : n ≤ 6) : Room demoFolders demoS demoStart demoBlobIds n where
  fresh := fun _ h => demo_day_fresh h
  nodup := by decide +kernel
  enough := hn
  hex := by unfold HexId; decide
  order := by decide

theorem demo_enumerates (path : Str) (h : Targets.placeholders path = []) :
    Targets.Enumerates (β := Unit) path (fun _ => .one ()) [] [[]] where
  namesNodup := by simp
  namesMem := by simp [h]
  combosNodup := by simp
  combosMem := by simp [Targets.product]

theorem demo_asked (s : Setup) (hs : s = dayWriter zJob none ∨ s = hourWriter zJob none) :
    Asked s demoValid (fun _ _ => .one ()) demoS demoCalls [1, 2, 3, 4, 7] where
  day := by
    intro t ht
    simp only [demoS, List.mem_cons, List.not_mem_nil, or_false] at ht
    rcases ht with rfl | rfl | rfl
    · exact feb28_day
    · exact feb29_day
    · exact mar1_day
  ok := by
    intro t a ha
    match t with
    | 0 =>
      simp only [demoCalls, List.mem_cons, List.not_mem_nil, or_false] at ha
      rcases ha with rfl | rfl | rfl | rfl
      · refine ⟨?_, ?_, demo_enumerates _ ?_⟩ <;> rcases hs with rfl | rfl <;> decide +kernel
      · refine ⟨?_, ?_, demo_enumerates _ ?_⟩ <;> rcases hs with rfl | rfl <;> decide +kernel
      · refine ⟨?_, ?_, demo_enumerates _ ?_⟩ <;> rcases hs with rfl | rfl <;> decide +kernel
      · trivial
    | 1 =>
      simp only [demoCalls, List.mem_cons, List.not_mem_nil, or_false] at ha
      rcases ha with rfl | rfl
      · refine ⟨?_, ?_, demo_enumerates _ ?_⟩ <;> rcases hs with rfl | rfl <;> decide +kernel
      · refine ⟨?_, ?_, demo_enumerates _ ?_⟩ <;> rcases hs with rfl | rfl <;> decide +kernel
    | 2 =>
      simp only [demoCalls, List.mem_cons, List.not_mem_nil, or_false] at ha
      subst ha
      trivial
    | n + 3 => cases ha
  records := by
    intro t now r names combos h
    match t with
    | 0 =>
      simp only [demoCalls, List.mem_cons, List.not_mem_nil, or_false, Call.append.injEq, reduceCtorEq] at h
      rcases h with ⟨-, rfl, -⟩ | ⟨-, rfl, -⟩ | ⟨-, rfl, -⟩ <;> simp
    | 1 =>
      simp only [demoCalls, List.mem_cons, List.not_mem_nil, or_false, Call.append.injEq, reduceCtorEq] at h
      rcases h with ⟨-, rfl, -⟩ | ⟨-, rfl, -⟩ <;> simp
    | 2 => simp [demoCalls] at h
    | n + 3 => cases h

/-- The machine after the threads have moved in these turns. -/
def demoAfter (s : Setup) (turns : List Nat) : Option (Machine (Fin 10)) :=
  Stream.schedule demoConf (atStart s demoValid (fun _ => []) demoCalls [0, 1, 2, 3, 4]) turns

theorem demo_after {s : Setup} {turns : List Nat} {P : Machine (Fin 10) → Bool} (h : (demoAfter s turns).any P = true) :
    ∃ m, Reach demoConf (atStart s demoValid (fun _ => []) demoCalls [0, 1, 2, 3, 4]) m ∧ P m = true := by
  cases he : demoAfter s turns with
  | none => rw [he] at h; cases h
  | some m =>
    rw [he] at h
    exact ⟨m, Stream.schedule_reach demoConf turns (.refl _) he, h⟩

/-- Non-vacuity: two threads and the attendant take turns until the writer is finalized.  The records 1, 4 and 2
of one day, in the order of the appends, are in two blobs, 7, which is not valid, in `BACKOUT`. -/
example : ∃ m, Reach demoConf (atStart (dayWriter zJob none) demoValid (fun _ => []) demoCalls [0, 1, 2, 3, 4]) m ∧
    m.owner = none ∧ m.pool.writers = [] ∧
    handed m.pool.store = [("tests/data/year_2024/month_02/day_28".toList, [1, 49, 10, 52, 10]),
      ("tests/data/year_2024/month_02/day_28".toList, [1, 50, 10]),
      ("tests/data/year_2024/month_02/day_28/BACKOUT/".toList, [1, 55, 10]),
      ("tests/data/year_2024/month_03/day_01".toList, [1, 51, 10])] ∧
    Room demoFolders demoS demoStart demoBlobIds (handed m.pool.store).length := by
  obtain ⟨m, h1, h2⟩ := demo_after (s := dayWriter zJob none)
    (turns := List.replicate 4 0 ++ List.replicate 8 1 ++ List.replicate 6 2 ++ List.replicate 15 0)
    (P := fun m => m.owner.isNone && m.pool.writers.isEmpty &&
      handed m.pool.store == [("tests/data/year_2024/month_02/day_28".toList, [1, 49, 10, 52, 10]),
        ("tests/data/year_2024/month_02/day_28".toList, [1, 50, 10]),
        ("tests/data/year_2024/month_02/day_28/BACKOUT/".toList, [1, 55, 10]),
        ("tests/data/year_2024/month_03/day_01".toList, [1, 51, 10])]) (by decide +kernel)
  simp only [Bool.and_eq_true, Option.isNone_iff_eq_none, List.isEmpty_iff, beq_iff_eq] at h2
  exact ⟨m, h1, h2.1.1, h2.1.2, h2.2, by rw [h2.2]; exact demo_room _ (by decide)⟩

/-- The other hypotheses hold as well. -/
example (m : Machine (Fin 10))
    (h1 : Reach demoConf (atStart (dayWriter zJob none) demoValid (fun _ => []) demoCalls [0, 1, 2, 3, 4]) m)
    (h2 : m.owner = none) (h3 : m.pool.writers = [])
    (h4 : Room demoFolders demoS demoStart demoBlobIds (handed m.pool.store).length) (now : DateTime) (rnd : Str)
    (hash : Str → Nat) :=
  C89_streamed_is_read daily WriterInit.demo_nested (by decide) none demoConf rfl demoValid (fun _ => []) (fun _ _ => .one ())
    demoCalls [0, 1, 2, 3, 4] demoStart demoBlobIds demo_range [1, 2, 3, 4, 7] tornLib (torn_readable _) now rnd
    ["tests/".toList] (by decide) hash (demo_asked _ (Or.inl rfl)) m h1 h2 h3 h4

/-- Non-vacuity: the same calls with folders for the hours; a writer is evicted while others append. -/
example : ∃ m, Reach demoConf (atStart (hourWriter zJob none) demoValid (fun _ => []) demoCalls [0, 1, 2, 3, 4]) m ∧
    m.owner = none ∧ m.pool.writers = [] ∧
    handed m.pool.store = [("tests/data/year_2024/month_02/day_28/by_hour/hour=10".toList, [1, 49, 10]),
      ("tests/data/year_2024/month_02/day_28/by_hour/hour=11/BACKOUT/".toList, [1, 55, 10]),
      ("tests/data/year_2024/month_02/day_28/by_hour/hour=11".toList, [1, 52, 10, 50, 10]),
      ("tests/data/year_2024/month_03/day_01/by_hour/hour=00".toList, [1, 51, 10])] ∧
    Room demoFolders demoS demoStart demoBlobIds (handed m.pool.store).length := by
  obtain ⟨m, h1, h2⟩ := demo_after (s := hourWriter zJob none)
    (turns := List.replicate 4 0 ++ List.replicate 8 1 ++ List.replicate 7 2 ++ List.replicate 15 0)
    (P := fun m => m.owner.isNone && m.pool.writers.isEmpty &&
      handed m.pool.store == [("tests/data/year_2024/month_02/day_28/by_hour/hour=10".toList, [1, 49, 10]),
        ("tests/data/year_2024/month_02/day_28/by_hour/hour=11/BACKOUT/".toList, [1, 55, 10]),
        ("tests/data/year_2024/month_02/day_28/by_hour/hour=11".toList, [1, 52, 10, 50, 10]),
        ("tests/data/year_2024/month_03/day_01/by_hour/hour=00".toList, [1, 51, 10])]) (by decide +kernel)
  simp only [Bool.and_eq_true, Option.isNone_iff_eq_none, List.isEmpty_iff, beq_iff_eq] at h2
  exact ⟨m, h1, h2.1.1, h2.1.2, h2.2, by rw [h2.2]; exact demo_room _ (by decide)⟩

example (m : Machine (Fin 10))
    (h1 : Reach demoConf (atStart (hourWriter zJob none) demoValid (fun _ => []) demoCalls [0, 1, 2, 3, 4]) m)
    (h2 : m.owner = none) (h3 : m.pool.writers = [])
    (h4 : Room demoFolders demoS demoStart demoBlobIds (handed m.pool.store).length) (now : DateTime) (rnd : Str)
    (hash : Str → Nat) :=
  C89_hours_are_read daily (fun t ht => usual_by (names := ["tests".toList, "data".toList]) (by decide) (by decide) ht)
    (by decide) none demoConf rfl demoValid (fun _ => []) (fun _ _ => .one ()) demoCalls [0, 1, 2, 3, 4] demoStart
    demoBlobIds demo_range [1, 2, 3, 4, 7] tornLib (torn_readable _) now rnd ["tests/".toList] (by decide) hash
    (demo_asked _ (Or.inr rfl)) m h1 h2 h3 h4

/-- **C89 (a torn blob).**  Of a blob that is cut short anywhere a reader delivers the first so many records. -/
theorem C89_torn_blob (codec : Writer.Codec ρ) (lib : Lib ρ) (format name : Str) (hfmt : format ≠ "text".toList)
    (hn : BlobName format name) (records : List ρ) (h : Readable codec lib records) (cut : Mabel.Blobs.Bytes)
    (hcut : cut <+: Writer.Spec.encode codec (formatOf format) records) :
    ∃ rows, rows <+: records ∧ readBlob lib {} name (.ok cut) = rows.map .row := by
  obtain ⟨rows, h1, h2⟩ := Mabel.Blobs.torn_read codec lib format name hfmt hn records h.faithful h.torn hcut
  refine ⟨rows, h1, ?_⟩
  rw [h2, List.filter_eq_self.2 (fun r hr => h.truthy r (h1.subset hr))]

/-- Non-vacuity: a blob of three records, cut in the third. -/
example : readBlob tornLib {} "tests/data/1a-1.jsonl.zstd".toList
    (.ok ((Writer.Spec.encode tornCodec (formatOf "zstd".toList) [1, 2, 3]).take 5)) = [.row 1, .row 2] := by
  decide +kernel

/-- **C89 (nothing is passed over).**  If the name of one of the blobs cannot be made, an error is raised. -/
theorem C89_nothing_passed_over (s : Setup) (ids : List Str) (d : Disk) (store : List (Str × Writer.Stored)) (k : Nat)
    {i target : Str} {bytes : Disk.Bytes} (h : (i, target, bytes) ∈ ids.zip (handed store)) {e : Err}
    (he : blobName target s.format i = .error e) : ∃ e', onDisk s ids d store k = .error e' := by
  unfold onDisk
  cases ho : diskOps s ids store with
  | error e' => exact ⟨e', rfl⟩
  | ok ops =>
    obtain ⟨name, hn⟩ := diskOps_name ho h
    simp only at hn
    rw [he] at hn
    cases hn

/-- Non-vacuity: of an empty target no name is made. -/
example : (onDisk (dayWriter zJob none) ["1a-1".toList, "1b-1".toList] demoStart
      [("tests/data/day".toList, .data [1]), ([], .data [2])] 1000).toOption.isNone ∧
    (blobName [] "zstd".toList "1b-1".toList).toOption = none := by decide +kernel

/-- **C89 (steps are never taken back).**  Whatever is called later, the steps on the disk for what has been stored
remain the first. -/
theorem C89_steps_stay (s : Setup) (ids : List Str) {c : Conf ρ} {m1 m2 : Machine ρ} (h : Reach c m1 m2) {later : List Op}
    (hl : diskOps s ids m2.pool.store = .ok later) :
    ∃ first, diskOps s ids m1.pool.store = .ok first ∧ first <+: later :=
  diskOps_grows (reach_grows h) hl

end Mabel.StreamStorage
