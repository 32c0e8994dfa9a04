import Verif.Lemmas.CloudMany
import Verif.Props.ManyStorage
import Verif.Props.CloudStreamSql

/-!
# Several processes with stream writers for one dataset on object storage: C116
-/

namespace Mabel.CloudStream
open Mabel.Py Mabel.Paths Mabel.Naming Mabel.Spec Mabel.Listing Mabel.ObjectStore Mabel.EndToEnd
open Mabel.Cloud (gcs minio gcsListed minioListed readerHours)
open Mabel.StreamStorage hiding put onDisk handed_prefix zip_fst_sublist
open Mabel.History (Day Daily folderOf DaysOf rangeReader)
open Mabel.Blobs (Lib Faithful delivered Item Names formatOf)
open Mabel.WriterInit (Nested)
open Mabel.Stream (Conf Machine Reach Pool run)
open Mabel.Text (sanitize)
open Mabel.Disk (Disk)
variable {ρ β : Type}

/-! ## The conditions -/

/-- There is room in the storage: no object in the folders of the days `S` at first, and identifiers for the blobs of each of the
`N` processes, of which, be they of one process or of two, one comes before the other; the dataset is in a bucket, and its last
folder has no dot in its name. -/
structure Places (ls : List (List Piece)) (S : DateTime → Prop) (s : List (Obj Disk.Bytes)) (N : Nat) (ps : Nat → Process ρ β)
    (m : Nat → Machine ρ) : Prop where
  tidy : ObjectStore.Tidy s
  empty : ∀ t, S t → ∀ q ∈ files s, beneath ⟨[], folderOf ls t⟩ q = false
  bucket : 2 ≤ ls.length
  dot : ∀ l ∈ ls.getLast?, ∀ t, Piece.lit t ∈ l → '.' ∉ t
  enough : ∀ i < N, (handed (m i).pool.store).length ≤ (ps i).ids.length
  hex : ∀ i < N, ∀ x ∈ (ps i).ids, HexId x ∧ x ≠ []
  order : ∀ i < N, (ps i).ids.Pairwise Before
  apart : ∀ i < N, ∀ j < N, i ≠ j → ∀ x ∈ (ps i).ids, ∀ y ∈ (ps j).ids, Before x y ∨ Before y x

/-- The blobs that a process has handed over, each with its identifier and the target it is for, in order. -/
def uploads (p : Process ρ β) (m : Machine ρ) : List (Str × Str × Disk.Bytes) := p.ids.zip (handed m.pool.store)

section
variable {ls : List (List Piece)} {S : DateTime → Prop} {s : List (Obj Disk.Bytes)} {N : Nat} {ps : Nat → Process ρ β}
  {m : Nat → Machine ρ}

theorem Places.rooms (h : Places ls S s N ps m) : Rooms ls S ⟨[], [], fun _ => []⟩ N ps m :=
  ⟨fun _ _ => ⟨nofun, List.nodup_nil, nofun, nofun⟩, List.nodup_nil, h.enough, h.hex, h.order, h.apart⟩

theorem Places.place (h : Places ls S s N ps m) : Place ls S s [] 0 :=
  ⟨h.tidy, h.empty, h.bucket, h.dot, Nat.zero_le _, nofun, List.Pairwise.nil⟩

end

/-- From what is read of the disk to what is read of the storage. -/
theorem many_reads {w : Job} {ls : List (List Piece)} (hw : Daily w ls) {S : DateTime → Prop} {first last : DateTime}
    {days : List DateTime} (hr : Range S first last days) {obj : List (Obj Disk.Bytes)} {N : Nat} {ps : Nat → Process ρ β}
    {m : Nat → Machine ρ} (hp : Places ls S obj N ps m) {s' : List (Obj Disk.Bytes)} {d' : Disk} (ha : Alike ls S s' d')
    (now : DateTime) (rnd : Str) (prefixes : List Str) (flt : Option PartitionFilter) (hash : Str → Nat) (lib : Lib ρ)
    {items : List (Item ρ)} {P Q : Prop}
    (hq : Q → Reader.openReader (rangeReader w first last prefixes flt) now rnd (diskBlobsAt d'.names) = .error .dataNotFound)
    (h : (Reader.openReader (rangeReader w first last prefixes flt) now rnd (diskBlobsAt d'.names) = .error .dataNotFound ∧ P) ∨
      ∃ l, Reader.openReader (rangeReader w first last prefixes flt) now rnd (diskBlobsAt d'.names) = .ok (0, l) ∧
        Names l ∧ delivered hash lib {} (Disk.read d') l = items) :
    Listed (rangeReader w first last prefixes flt) now rnd ls days s' ∧
    ∀ blobsAt, Lister (rangeReader w first last prefixes flt) now rnd s' blobsAt →
      (Q → Reader.openReader (rangeReader w first last prefixes flt) now rnd blobsAt = .error .dataNotFound) ∧
      ((Reader.openReader (rangeReader w first last prefixes flt) now rnd blobsAt = .error .dataNotFound ∧ P) ∨
        ∃ l, Reader.openReader (rangeReader w first last prefixes flt) now rnd blobsAt = .ok (0, l) ∧
          delivered hash lib {} (blobBytes s') l = items) := by
  obtain ⟨c1, c2⟩ := reads_objects hw hr hp.place ha now rnd prefixes flt hash lib
  refine ⟨c1, fun blobsAt hb => ?_⟩
  obtain ⟨c3, c4⟩ := c2 blobsAt hb
  refine ⟨fun q => c3 _ (hq q), ?_⟩
  rcases h with ⟨g5, g6⟩ | ⟨l, g5, g6, g7⟩
  · exact Or.inl ⟨c3 _ g5, g6⟩
  · obtain ⟨l', e1, e2⟩ := c4 l g5 g6
    exact Or.inr ⟨l', e1, by rw [e2, g7]⟩

/-! ## A folder for each day -/

section
variable {w : Job} {ls : List (List Piece)} (hw : Daily w ls) (hn : Nested ls) (hfmt : w.format ≠ "text".toList)
  {S : DateTime → Prop} (N : Nat) (hN : 0 < N) (ps : Nat → Process ρ β)
  (hset : ∀ i < N, ∃ date, (ps i).setup = dayWriter w date) (field : ρ → Str → Targets.Field β) (lib : Lib ρ)
  (records : List ρ) (hp : ∀ i < N, Sends w field S lib records (ps i)) (m1 m2 : Nat → Machine ρ)
  (hm : ∀ i < N, Runs (ps i) (m1 i) (m2 i)) (s : List (Obj Disk.Bytes)) (hplace : Places ls S s N ps m2) {first last : DateTime}
  {days : List DateTime} (hr : Range S first last days) (now : DateTime) (rnd : Str) (prefixes : List Str)
  (hallow : Reader.allowed prefixes w.dataset = true) (hash : Str → Nat)
include hw hn hfmt hN hset hp hm hplace hr hallow

/-- **C116 (processes).**  Threads of any number of processes call stream writers for one dataset on Google Cloud Storage or MinIO,
each process with its own writer.  At one moment no call was under way in a process; now any may be, and the first so many of the
blobs each process has handed over have been stored, mixed with those of the others in any way: some processes may be dead, some
still at work, some started after others had died.  Then every blob was stored, and a reader of a range of days delivers, day by
day, records of the processes of which those of one process are the first so many of the valid records appended by it on that day,
in the order of the appends, and among them all those appended up to the earlier moment if no writer was open at it (as after
`finalize`) and the blobs handed over by then have been stored.  If the identifiers of one process all come before those of
another, so do its records.  No data is found only if there is none of this.

Partial: datasets whose folders are not in a bucket, or whose last folder has a dot in its name, are missing (see
`C79_listing_partial`), and what C91 says of identifiers. -/
theorem C116_processes_partial :
    ∃ hist1 hist2 : Nat → List (Nat × Call ρ β),
      (∀ i < N, Made (ps i) (m1 i) (m2 i) (hist1 i) (hist2 i)) ∧
      ∀ us : List (Nat × Str × Str × Disk.Bytes), (∀ x ∈ us, x.1 < N) → (∀ i < N, share us i <+: uploads (ps i) (m2 i)) →
      ∃ (s' : List (Obj Disk.Bytes)) (rows : DateTime → List (Nat × ρ)),
        storeEach gcs w.format s (us.map (·.2)) = .ok s' ∧ storeEach minio w.format s (us.map (·.2)) = .ok s' ∧
        Listed (rangeReader w first last prefixes) now rnd ls days s' ∧
        (∀ i < N, ∀ t ∈ days, share (rows t) i <+: (ps i).appended (fun u => midnight u = t) (hist1 i ++ hist2 i)) ∧
        (∀ i < N, (m1 i).pool.writers = [] → (handed (m1 i).pool.store).length ≤ (share us i).length → ∀ t ∈ days,
            (ps i).appended (fun u => midnight u = t) (hist1 i) <+: share (rows t) i) ∧
        (∀ i < N, ∀ j < N, (∀ x ∈ (ps i).ids, ∀ y ∈ (ps j).ids, Before x y) → ∀ t ∈ days,
          (rows t).Pairwise (fun a b => ¬ (a.1 = j ∧ b.1 = i))) ∧
        (∀ t, ∀ x ∈ rows t, x.1 < N) ∧
        ∀ blobsAt, Lister (rangeReader w first last prefixes) now rnd s' blobsAt →
          (Reader.openReader (rangeReader w first last prefixes) now rnd blobsAt = .error .dataNotFound ∧
            ∀ t ∈ days, rows t = []) ∨
          ∃ l, Reader.openReader (rangeReader w first last prefixes) now rnd blobsAt = .ok (0, l) ∧
            delivered hash lib {} (blobBytes s') l = (days.flatMap fun t => (rows t).map (·.2)).map .row := by
  obtain ⟨hist1, hist2, ops, h1, hk⟩ := many_timed hw hfmt (layout_plain hw hn) timed_plain N hN ps
    (fun i hi => by obtain ⟨date, h⟩ := hset i hi; rw [h]; rfl)
    (fun i hi => by obtain ⟨date, h⟩ := hset i hi; rw [h]; exact day_template hw date hr.start)
    field lib records hp m1 m2 hm _ hplace.rooms hr now rnd prefixes hallow hash
  refine ⟨hist1, hist2, fun i hi => (h1 i hi).1, ?_⟩
  intro us a1 a2
  obtain ⟨os, s', b1, b2, b3, b4, b5, b6⟩ := many_bridge (layout_plain hw hn) (hp 0 hN).asked.day N ps
    (fun i hi => by obtain ⟨date, h⟩ := hset i hi; rw [h]; rfl) m2 (fun i hi => (h1 i hi).2.2) hplace.hex hplace.order hplace.apart
    s hplace.tidy hplace.empty us a1 a2
  obtain ⟨d', rows, g1, g2, g3, g4, g5, -, g7⟩ := hk os b1 (fun i hi => b2 i hi _ (h1 i hi).2.1) (fun i hi => Or.inr (b3 i hi))
  obtain ⟨c1, c2⟩ := many_reads hw hr hplace (b6 d' g1) now rnd prefixes none hash lib (Q := False) nofun g7
  refine ⟨s', fun t => rows t [], b5 _ (Or.inl rfl), b5 _ (Or.inr rfl), c1, ?_, ?_, ?_, fun t => g5 t [], ?_⟩
  · intro i hi t ht
    have := g2 i hi t ht [] (by simp)
    rw [Process.appended, plain_congr] at this
    exact this
  · intro i hi he hj t ht
    have := g3 i hi he (b4 i hi _ (reach_grows (hm i hi).later) hj) t ht [] (by simp)
    rw [Process.appended, plain_congr] at this
    exact this
  · intro i hi j hj hb t ht
    exact g4 i hi j hj hb t ht [] (by simp)
  · intro blobsAt hb
    rcases (c2 blobsAt hb).2 with ⟨g8, g9⟩ | ⟨l, g8, g9⟩
    · exact Or.inl ⟨g8, fun t ht => g9 t ht [] (by simp)⟩
    · exact Or.inr ⟨l, g8, by rw [g9]; simp⟩

/-- **C116 (all finalized).**  If in no process a call is under way or a writer open, and all blobs have been stored, in any order
in which each process stores its own in order, exactly the valid records appended by each process are delivered, day by day. -/
theorem C116_finalized_partial (hempty : ∀ i < N, (m1 i).pool.writers = []) (hsame : m2 = m1) :
    ∃ hist : Nat → List (Nat × Call ρ β), (∀ i < N, Made (ps i) (m1 i) (m1 i) (hist i) []) ∧
      ∀ us : List (Nat × Str × Str × Disk.Bytes), (∀ x ∈ us, x.1 < N) → (∀ i < N, share us i = uploads (ps i) (m1 i)) →
      ∃ (s' : List (Obj Disk.Bytes)) (rows : DateTime → List (Nat × ρ)),
        storeEach gcs w.format s (us.map (·.2)) = .ok s' ∧ storeEach minio w.format s (us.map (·.2)) = .ok s' ∧
        Listed (rangeReader w first last prefixes) now rnd ls days s' ∧
        (∀ i < N, ∀ t ∈ days, share (rows t) i = (ps i).appended (fun u => midnight u = t) (hist i)) ∧
        (∀ t, ∀ x ∈ rows t, x.1 < N) ∧
        ∀ blobsAt, Lister (rangeReader w first last prefixes) now rnd s' blobsAt →
          (Reader.openReader (rangeReader w first last prefixes) now rnd blobsAt = .error .dataNotFound ∧
            ∀ t ∈ days, rows t = []) ∨
          ∃ l, Reader.openReader (rangeReader w first last prefixes) now rnd blobsAt = .ok (0, l) ∧
            delivered hash lib {} (blobBytes s') l = (days.flatMap fun t => (rows t).map (·.2)).map .row := by
  subst hsame
  obtain ⟨hist1, hist2, h1, hk⟩ := C116_processes_partial hw hn hfmt N hN ps hset field lib records hp m2 m2 hm s hplace hr now rnd
    prefixes hallow hash
  have hnone : ∀ i < N, hist2 i = [] := fun i hi => (h1 i hi).none
  refine ⟨hist1, fun i hi => hnone i hi ▸ h1 i hi, ?_⟩
  intro us a1 a2
  obtain ⟨s', rows, e1, e2, e3, g2, g3, -, g5, g6⟩ := hk us a1 (fun i hi => by rw [a2 i hi]; exact List.prefix_rfl)
  refine ⟨s', rows, e1, e2, e3, ?_, g5, g6⟩
  intro i hi t ht
  have b1 := g2 i hi t ht
  have b2 := g3 i hi (hempty i hi) (by
    rw [a2 i hi, uploads, List.length_zip, Nat.min_eq_right (hplace.enough i hi)]) t ht
  rw [hnone i hi, List.append_nil] at b1
  exact b1.eq_of_length (Nat.le_antisymm b1.length_le b2.length_le)

/-- **C116 (started again).**  A process with a stream writer is started again and again; each time it may come to an end at any
moment and with any number of its blobs stored.  A reader of a range of days then delivers, day by day, what is left of each
process in turn. -/
theorem C116_started_again_partial (hseq : ∀ i < N, ∀ j < N, i < j → ∀ x ∈ (ps i).ids, ∀ y ∈ (ps j).ids, Before x y) :
    ∃ hist1 hist2 : Nat → List (Nat × Call ρ β),
      (∀ i < N, Made (ps i) (m1 i) (m2 i) (hist1 i) (hist2 i)) ∧
      ∀ k : Nat → Nat,
      ∃ (s' : List (Obj Disk.Bytes)) (rows : Nat → DateTime → List ρ),
        storeEach gcs w.format s ((List.range N).flatMap fun i => (uploads (ps i) (m2 i)).take (k i)) = .ok s' ∧
        storeEach minio w.format s ((List.range N).flatMap fun i => (uploads (ps i) (m2 i)).take (k i)) = .ok s' ∧
        Listed (rangeReader w first last prefixes) now rnd ls days s' ∧
        (∀ i < N, ∀ t ∈ days, rows i t <+: (ps i).appended (fun u => midnight u = t) (hist1 i ++ hist2 i)) ∧
        (∀ i < N, (m1 i).pool.writers = [] → (handed (m1 i).pool.store).length ≤ k i → ∀ t ∈ days,
            (ps i).appended (fun u => midnight u = t) (hist1 i) <+: rows i t) ∧
        ∀ blobsAt, Lister (rangeReader w first last prefixes) now rnd s' blobsAt →
          (Reader.openReader (rangeReader w first last prefixes) now rnd blobsAt = .error .dataNotFound ∧
            ∀ i < N, ∀ t ∈ days, rows i t = []) ∨
          ∃ l, Reader.openReader (rangeReader w first last prefixes) now rnd blobsAt = .ok (0, l) ∧
            delivered hash lib {} (blobBytes s') l
              = (days.flatMap fun t => (List.range N).flatMap fun i => rows i t).map .row := by
  obtain ⟨hist1, hist2, h1, hk⟩ := C116_processes_partial hw hn hfmt N hN ps hset field lib records hp m1 m2 hm s hplace hr now rnd
    prefixes hallow hash
  refine ⟨hist1, hist2, h1, ?_⟩
  intro k
  let us : List (Nat × Str × Str × Disk.Bytes) := (List.range N).flatMap fun i => ((uploads (ps i) (m2 i)).take (k i)).map fun o => (i, o)
  have hus : ∀ i < N, share us i = (uploads (ps i) (m2 i)).take (k i) := by
    intro i hi
    have key : ∀ m, share ((List.range m).flatMap fun i => ((uploads (ps i) (m2 i)).take (k i)).map fun o => (i, o)) i
        = if i < m then (uploads (ps i) (m2 i)).take (k i) else [] := by
      intro m
      induction m with
      | zero => rfl
      | succ m ih =>
        rw [List.range_succ, List.flatMap_append, share_append, ih, List.flatMap_singleton, share_marked]
        by_cases h : m = i
        · subst h; simp
        · rw [if_neg h, List.append_nil]
          by_cases h2 : i < m
          · rw [if_pos h2, if_pos (by omega)]
          · rw [if_neg h2, if_neg (by omega)]
    show share ((List.range N).flatMap _) i = _
    rw [key, if_pos hi]
  have hflat : us.map (·.2) = (List.range N).flatMap fun i => (uploads (ps i) (m2 i)).take (k i) := by
    simp only [us, List.map_flatMap]
    apply List.flatMap_congr
    intro i _
    rw [List.map_map]
    exact List.map_id _
  obtain ⟨s', rows, e1, e2, e3, g2, g3, g4, g5, g6⟩ := hk us
    (by
      intro x hx
      obtain ⟨i, hi, hx⟩ := List.mem_flatMap.1 hx
      obtain ⟨o, -, rfl⟩ := List.mem_map.1 hx
      exact List.mem_range.1 hi)
    (fun i hi => by rw [hus i hi]; exact List.take_prefix _ _)
  rw [hflat] at e1 e2
  have hsplit : ∀ t ∈ days, (rows t).map (·.2) = (List.range N).flatMap fun i => share (rows t) i := by
    intro t ht
    refine shares_in_order _ N (g5 t) ?_
    have key : ∀ l : List (Nat × ρ), (∀ x ∈ l, x.1 < N) →
        (∀ i < N, ∀ j < N, i < j → l.Pairwise (fun a b => ¬ (a.1 = j ∧ b.1 = i))) → l.Pairwise (fun a b => a.1 ≤ b.1) := by
      intro l
      induction l with
      | nil => intros; exact List.Pairwise.nil
      | cons a l ih =>
        intro hb h
        refine List.pairwise_cons.2 ⟨?_, ih (fun x hx => hb x (by simp [hx]))
          (fun i hi j hj hij => (List.pairwise_cons.1 (h i hi j hj hij)).2)⟩
        intro b hbl
        by_contra hlt
        exact (List.pairwise_cons.1 (h b.1 (hb b (by simp [hbl])) a.1 (hb a (by simp)) (by omega))).1 b hbl ⟨rfl, rfl⟩
    exact key _ (g5 t) (fun i hi j hj hij => g4 i hi j hj (hseq i hi j hj hij) t ht)
  refine ⟨s', fun i t => share (rows t) i, e1, e2, e3, g2, ?_, ?_⟩
  · intro i hi he hj t ht
    refine g3 i hi he ?_ t ht
    rw [hus i hi, List.length_take, uploads, List.length_zip, Nat.min_eq_right (hplace.enough i hi)]
    exact Nat.le_min.2 ⟨hj, (handed_prefix (reach_grows (hm i hi).later)).length_le⟩
  · intro blobsAt hb
    rcases g6 blobsAt hb with ⟨g6, g7⟩ | ⟨l, g6, g7⟩
    · refine Or.inl ⟨g6, fun i _ t ht => ?_⟩
      show share (rows t) i = []
      rw [g7 t ht]
      rfl
    · refine Or.inr ⟨l, g6, ?_⟩
      rw [g7, List.flatMap_congr hsplit]

end

/-! ## A folder for each hour -/

section
variable {w : Job} {ls : List (List Piece)} (hw : Daily w ls)
  (hby : ∀ t, Day t → contains "by_".toList (join ['/'] (folderOf ls t)) = false) (hfmt : w.format ≠ "text".toList)
  {S : DateTime → Prop} (N : Nat) (hN : 0 < N) (ps : Nat → Process ρ β)
  (hset : ∀ i < N, ∃ date, (ps i).setup = hourWriter w date) (field : ρ → Str → Targets.Field β) (lib : Lib ρ)
  (records : List ρ) (hp : ∀ i < N, Sends w field S lib records (ps i)) (m1 m2 : Nat → Machine ρ)
  (hm : ∀ i < N, Runs (ps i) (m1 i) (m2 i)) (s : List (Obj Disk.Bytes)) (hplace : Places ls S s N ps m2) {first last : DateTime}
  {days : List DateTime} (hr : Range S first last days) (now : DateTime) (rnd : Str) (prefixes : List Str)
  (hallow : Reader.allowed prefixes w.dataset = true) (hash : Str → Nat)
include hw hby hfmt hN hset hp hm hplace hr hallow

/-- **C116 (by the hour).**  As `C116_processes_partial`, of writers that partition each day by the hour: what is delivered of a day
is in the order of the hours. -/
theorem C116_hours_partial :
    ∃ hist1 hist2 : Nat → List (Nat × Call ρ β),
      (∀ i < N, Made (ps i) (m1 i) (m2 i) (hist1 i) (hist2 i)) ∧
      ∀ us : List (Nat × Str × Str × Disk.Bytes), (∀ x ∈ us, x.1 < N) → (∀ i < N, share us i <+: uploads (ps i) (m2 i)) →
      ∃ (s' : List (Obj Disk.Bytes)) (rows : DateTime → Nat → List (Nat × ρ)),
        storeEach gcs w.format s (us.map (·.2)) = .ok s' ∧ storeEach minio w.format s (us.map (·.2)) = .ok s' ∧
        Listed (rangeReader w first last prefixes) now rnd ls days s' ∧
        (∀ i < N, ∀ t ∈ days, ∀ h < 24,
          share (rows t h) i <+: (ps i).appended (fun u => midnight u = t ∧ u.hour = h) (hist1 i ++ hist2 i)) ∧
        (∀ i < N, (m1 i).pool.writers = [] → (handed (m1 i).pool.store).length ≤ (share us i).length → ∀ t ∈ days, ∀ h < 24,
            (ps i).appended (fun u => midnight u = t ∧ u.hour = h) (hist1 i) <+: share (rows t h) i) ∧
        (∀ i < N, ∀ j < N, (∀ x ∈ (ps i).ids, ∀ y ∈ (ps j).ids, Before x y) → ∀ t ∈ days, ∀ h < 24,
          (rows t h).Pairwise (fun a b => ¬ (a.1 = j ∧ b.1 = i))) ∧
        (∀ t h, ∀ x ∈ rows t h, x.1 < N) ∧
        ∀ blobsAt, Lister (rangeReader w first last prefixes) now rnd s' blobsAt →
          (Reader.openReader (rangeReader w first last prefixes) now rnd blobsAt = .error .dataNotFound ∧
            ∀ t ∈ days, ∀ h < 24, rows t h = []) ∨
          ∃ l, Reader.openReader (rangeReader w first last prefixes) now rnd blobsAt = .ok (0, l) ∧
            delivered hash lib {} (blobBytes s') l
              = (days.flatMap fun t => (List.range 24).flatMap fun h => (rows t h).map (·.2)).map .row := by
  obtain ⟨hist1, hist2, ops, h1, hk⟩ := many_timed hw hfmt (layout_hour hw hby) timed_hour N hN ps
    (fun i hi => by obtain ⟨date, h⟩ := hset i hi; rw [h]; rfl)
    (fun i hi => by obtain ⟨date, h⟩ := hset i hi; rw [h]; exact hour_template hw date hr.start)
    field lib records hp m1 m2 hm _ hplace.rooms hr now rnd prefixes hallow hash
  refine ⟨hist1, hist2, fun i hi => (h1 i hi).1, ?_⟩
  intro us a1 a2
  obtain ⟨os, s', b1, b2, b3, b4, b5, b6⟩ := many_bridge (layout_hour hw hby) (hp 0 hN).asked.day N ps
    (fun i hi => by obtain ⟨date, h⟩ := hset i hi; rw [h]; rfl) m2 (fun i hi => (h1 i hi).2.2) hplace.hex hplace.order hplace.apart
    s hplace.tidy hplace.empty us a1 a2
  obtain ⟨d', rows, g1, g2, g3, g4, g5, -, g7⟩ := hk os b1 (fun i hi => b2 i hi _ (h1 i hi).2.1) (fun i hi => Or.inr (b3 i hi))
  obtain ⟨c1, c2⟩ := many_reads hw hr hplace (b6 d' g1) now rnd prefixes none hash lib (Q := False) nofun g7
  have hmem : ∀ h < 24, hourFolders h ∈ (List.range 24).map hourFolders :=
    fun h hh => List.mem_map.2 ⟨h, List.mem_range.2 hh, rfl⟩
  refine ⟨s', fun t h => rows t (hourFolders h), b5 _ (Or.inl rfl), b5 _ (Or.inr rfl), c1, ?_, ?_, ?_, fun t h => g5 t _, ?_⟩
  · intro i hi t ht h hh
    obtain ⟨left1, left2, s1, s2, -, -⟩ := (h1 i hi).1.served
    have := g2 i hi t ht _ (hmem h hh)
    rw [Process.appended, hour_congr (hp i hi).asked (s1.append s2) hh] at this
    exact this
  · intro i hi he hj t ht h hh
    obtain ⟨left1, left2, s1, s2, -, -⟩ := (h1 i hi).1.served
    have := g3 i hi he (b4 i hi _ (reach_grows (hm i hi).later) hj) t ht _ (hmem h hh)
    rw [Process.appended, hour_congr (hp i hi).asked s1 hh] at this
    exact this
  · intro i hi j hj hb t ht h hh
    exact g4 i hi j hj hb t ht _ (hmem h hh)
  · intro blobsAt hb
    rcases (c2 blobsAt hb).2 with ⟨g8, g9⟩ | ⟨l, g8, g9⟩
    · exact Or.inl ⟨g8, fun t ht h hh => g9 t ht _ (hmem h hh)⟩
    · refine Or.inr ⟨l, g8, ?_⟩
      rw [g9]
      simp only [List.flatMap_map]

end

/-! ## A folder for each value of a field -/

section
variable {w : Job} {ls : List (List Piece)} (hw : Daily w ls)
  (hby : ∀ t, Day t → contains "by_".toList (join ['/'] (folderOf ls t)) = false) (hfmt : w.format ≠ "text".toList)
  {S : DateTime → Prop} (N : Nat) (hN : 0 < N) (ps : Nat → Process ρ β) (F : Str)
  (hset : ∀ i < N, ∃ date, (ps i).setup = fieldWriter w F date) (str : β → Str) (hstr : ∀ i < N, (ps i).str = str)
  (field : ρ → Str → Targets.Field β) (lib : Lib ρ)
  (records : List ρ) (hp : ∀ i < N, Sends w field S lib records (ps i)) (m1 m2 : Nat → Machine ρ)
  (hm : ∀ i < N, Runs (ps i) (m1 i) (m2 i)) (s : List (Obj Disk.Bytes)) (hplace : Places ls S s N ps m2) {first last : DateTime}
  {days : List DateTime} (hr : Range S first last days) (now : DateTime) (rnd : Str) (prefixes : List Str)
  (hallow : Reader.allowed prefixes w.dataset = true) (hash : Str → Nat)
  (flt : PartitionFilter) (hflt : Asks F flt) (hone : OneValue str field F flt.value records)
include hw hby hfmt hN hset hstr hp hm hplace hr hallow hflt hone

/-- **C116 (by a field).**  As `C116_processes_partial`, of writers that partition by a field, and a reader with a filter for a value
of it: the records are those with this value. -/
theorem C116_filter_partial :
    ∃ hist1 hist2 : Nat → List (Nat × Call ρ β),
      (∀ i < N, Made (ps i) (m1 i) (m2 i) (hist1 i) (hist2 i)) ∧
      ∀ us : List (Nat × Str × Str × Disk.Bytes), (∀ x ∈ us, x.1 < N) → (∀ i < N, share us i <+: uploads (ps i) (m2 i)) →
      ∃ (s' : List (Obj Disk.Bytes)) (rows : DateTime → List (Nat × ρ)),
        storeEach gcs w.format s (us.map (·.2)) = .ok s' ∧ storeEach minio w.format s (us.map (·.2)) = .ok s' ∧
        Listed (rangeReader w first last prefixes (some flt)) now rnd ls days s' ∧
        (∀ i < N, ∀ t ∈ days, share (rows t) i <+:
          appended (ps i).setup.date (fun r => (ps i).valid r && has str field F flt.value r) (fun u => midnight u = t)
            (hist1 i ++ hist2 i)) ∧
        (∀ i < N, (m1 i).pool.writers = [] → (handed (m1 i).pool.store).length ≤ (share us i).length → ∀ t ∈ days,
          appended (ps i).setup.date (fun r => (ps i).valid r && has str field F flt.value r) (fun u => midnight u = t)
            (hist1 i) <+: share (rows t) i) ∧
        (∀ t, ∀ x ∈ rows t, x.1 < N) ∧
        ∀ blobsAt, Lister (rangeReader w first last prefixes (some flt)) now rnd s' blobsAt →
          (Reader.openReader (rangeReader w first last prefixes (some flt)) now rnd blobsAt = .error .dataNotFound ∧
            ∀ t ∈ days, rows t = []) ∨
          ∃ l, Reader.openReader (rangeReader w first last prefixes (some flt)) now rnd blobsAt = .ok (0, l) ∧
            delivered hash lib {} (blobBytes s') l = (days.flatMap fun t => (rows t).map (·.2)).map .row := by
  obtain ⟨hist1, hist2, ops, h1, hk⟩ := many_field hw hby hfmt N hN ps F hset str hstr field lib records hp
    m1 m2 hm _ hplace.rooms hr now rnd prefixes hallow hash flt hflt hone
  refine ⟨hist1, hist2, fun i hi => (h1 i hi).1, ?_⟩
  intro us a1 a2
  have hy := layout_field hw hby hflt.name (field_values_safe (str := str) (field := field) (F := F) (x := flt.value) (records := records))
    flt hflt.field hflt.op (by simp [fieldValues]) hflt.value
  obtain ⟨os, s', b1, b2, b3, b4, b5, b6⟩ := many_bridge hy (hp 0 hN).asked.day N ps
    (fun i hi => by obtain ⟨date, h⟩ := hset i hi; rw [h]; rfl) m2 (fun i hi => (h1 i hi).2.2) hplace.hex hplace.order hplace.apart
    s hplace.tidy hplace.empty us a1 a2
  obtain ⟨d', rows, g1, g2, g3, -, g5, g7⟩ := hk os b1 (fun i hi => b2 i hi _ (h1 i hi).2.1) (fun i hi => Or.inr (b3 i hi))
  obtain ⟨c1, c2⟩ := many_reads hw hr hplace (b6 d' g1) now rnd prefixes (some flt) hash lib (Q := False) nofun g7
  exact ⟨s', rows, b5 _ (Or.inl rfl), b5 _ (Or.inr rfl), c1, g2,
    fun i hi he hj => g3 i hi he (b4 i hi _ (reach_grows (hm i hi).later) hj), g5, fun blobsAt hb => (c2 blobsAt hb).2⟩

end

/-! ## A concrete case -/

theorem demo_places {ids : List Str} (h1 : ids.length = 6) (h2 : ∀ x ∈ ids, HexId x ∧ x ≠ []) (h3 : ids.Pairwise Before)
    (h4 : ∀ x ∈ demoBlobIds, ∀ y ∈ ids, Before x y ∨ Before y x) (m : Nat → Machine (Fin 10))
    (hm : ∀ i < 2, (handed (m i).pool.store).length ≤ 6) :
    Places demoFolders demoS Cloud.demoObjs 2 (fun i => demoProcess (if i = 0 then demoBlobIds else ids)) m :=
  have h := demo_rooms h1 h2 h3 h4 m hm
  have hp := demo_place 0 (by decide)
  ⟨hp.tidy, hp.empty, hp.bucket, hp.dot, h.enough, h.hex, h.order, h.apart⟩

/-- Non-vacuity: of two processes at once, one has been finalized, and the other is in the middle of a call; of its records one blob
has been handed over. -/
example : ∃ m1 m2 : Nat → Machine (Fin 10), (∀ i < 2, Runs (atOnce i) (m1 i) (m2 i)) ∧
    (m1 0).pool.writers = [] ∧ (handed (m1 0).pool.store).length = 4 ∧
    (m2 1).owner ≠ none ∧ (handed (m2 1).pool.store).length = 1 ∧ Places demoFolders demoS Cloud.demoObjs 2 atOnce m2 := by
  obtain ⟨m, h1, h2⟩ := demo_after (s := dayWriter zJob none)
    (turns := List.replicate 4 0 ++ List.replicate 8 1 ++ List.replicate 6 2 ++ List.replicate 15 0)
    (P := fun m => m.owner.isNone && m.pool.writers.isEmpty && (handed m.pool.store).length == 4) (by decide +kernel)
  obtain ⟨n, h3, h4⟩ := demo_after (s := dayWriter zJob none)
    (turns := List.replicate 4 0 ++ List.replicate 8 1 ++ List.replicate 6 2 ++ List.replicate 6 0)
    (P := fun m => m.owner.isSome && (handed m.pool.store).length == 1) (by decide +kernel)
  simp only [Bool.and_eq_true, Option.isNone_iff_eq_none, List.isEmpty_iff, beq_iff_eq] at h2 h4
  refine ⟨fun i => if i = 0 then m else (atOnce 1).start, fun i => if i = 0 then m else n, ?_, h2.1.2, h2.2, ?_, h4.2, ?_⟩
  · intro i hi
    by_cases h : i = 0
    · subst h
      exact ⟨h1, h2.1.1, .refl _⟩
    · obtain rfl : i = 1 := by omega
      exact ⟨.refl _, rfl, h3⟩
  · intro h
    have := h4.1
    rw [show n.owner = none from h] at this
    cases this
  · refine demo_places (by decide) (by unfold HexId; decide) (by decide) (by decide) _ ?_
    intro i hi
    by_cases h : i = 0
    · subst h
      exact h2.2.le.trans (by decide)
    · obtain rfl : i = 1 := by omega
      exact h4.2.le.trans (by decide)

/-- The other hypotheses hold as well. -/
example (m1 m2 : Nat → Machine (Fin 10)) (h : ∀ i < 2, Runs (atOnce i) (m1 i) (m2 i))
    (hp : Places demoFolders demoS Cloud.demoObjs 2 atOnce m2) (now : DateTime) (rnd : Str) (hash : Str → Nat) :=
  C116_processes_partial History.daily WriterInit.demo_nested (by decide) 2 (by decide) atOnce (fun _ _ => ⟨none, rfl⟩)
    (fun _ _ => .one ()) tornLib [1, 2, 3, 4, 7] (fun _ _ => (demo_writes _).sends) m1 m2 h Cloud.demoObjs hp demo_range now rnd
    ["tests/".toList] (by decide) hash

/-- Those of `C116_finalized_partial`: two processes, both finalized. -/
example (now : DateTime) (rnd : Str) (hash : Str → Nat) : ∃ m : Machine (Fin 10), (handed m.pool.store).length = 4 ∧
    ∃ hist : Nat → List (Nat × Call (Fin 10) Unit), ∀ i < 2, Made (atOnce i) m m (hist i) [] := by
  obtain ⟨m, h1, h2, h3, h4, -⟩ := demo_finalized
  obtain ⟨hist, g, -⟩ := C116_finalized_partial History.daily WriterInit.demo_nested (by decide) 2 (by decide) atOnce
    (fun _ _ => ⟨none, rfl⟩) (fun _ _ => .one ()) tornLib [1, 2, 3, 4, 7] (fun _ _ => (demo_writes _).sends) (fun _ => m) (fun _ => m)
    (fun i _ => ⟨h1, h2, .refl _⟩) Cloud.demoObjs
    (demo_places (by decide) (by unfold HexId; decide) (by decide) (by decide) _ (fun _ _ => h4.le.trans (by decide))) demo_range now rnd
    ["tests/".toList] (by decide) hash (fun _ _ => h3) rfl
  exact ⟨m, h4, hist, g⟩

/-- Those of `C116_started_again_partial`: a process that is started again after it has died in the middle of a call. -/
example (m1 m2 : Nat → Machine (Fin 10)) (h : ∀ i < 2, Runs (again i) (m1 i) (m2 i))
    (hr : ∀ i < 2, (handed (m2 i).pool.store).length ≤ 6) (now : DateTime) (rnd : Str) (hash : Str → Nat) :=
  C116_started_again_partial History.daily WriterInit.demo_nested (by decide) 2 (by decide) again (fun _ _ => ⟨none, rfl⟩)
    (fun _ _ => .one ()) tornLib [1, 2, 3, 4, 7] (fun _ _ => (demo_writes _).sends) m1 m2 h Cloud.demoObjs
    (demo_places (by decide) (by unfold HexId; decide) (by decide) (by decide) m2 hr) demo_range now rnd ["tests/".toList]
    (by decide) hash (fun i hi j hj hij => by
      obtain rfl : i = 0 := by omega
      obtain rfl : j = 1 := by omega
      decide)

/-! ## Where it fails -/

/-- What a reader of three days on Google Cloud Storage delivers after two processes have each made these calls to a stream writer and
made these identifiers, if it finds data: the blobs of the first process are stored, then those of the second. -/
def cloudTwo (ids1 ids2 : List Str) (calls1 calls2 : List (Call (Fin 10) Unit)) : Option (List (Item (Fin 10))) :=
  let pool := fun calls => run demoConf { clock := [0, 1, 2, 3, 4] } (calls.map (op (dayWriter zJob none) demoValid fun _ => []))
  match storeEach gcs zJob.format Cloud.demoObjs (ids1.zip (handed (pool calls1).store) ++ ids2.zip (handed (pool calls2).store)) with
  | .error _ => none
  | .ok s =>
    match Reader.openReader (rangeReader zJob History.feb28 History.mar1 ["tests/".toList]) History.feb28 [] (gcsListed s) with
    | .error _ => none
    | .ok (_, l) => some (delivered (fun _ => 0) tornLib {} (blobBytes s) l)

/-- It works. -/
example : cloudTwo ["1a-1".toList] ["1a-22".toList] [.append morning 1 [] [[]], .finalize] [.append morning 2 [] [[]], .finalize]
    = some [.row 1, .row 2] := by decide +kernel

/-- **The same identifier**: two processes with the same process number, on machines that say they have the same address (as
containers may), store a blob at the same time.  Both uploads succeed, and the record of the first is lost. -/
theorem C116_same_identifier_fails :
    cloudTwo ["1a-1".toList] ["1a-1".toList] [.append morning 1 [] [[]], .finalize] [.append morning 2 [] [[]], .finalize]
      = some [.row 2] := by decide +kernel

end Mabel.CloudStream

/-! ## Statements about them -/

namespace Mabel.SqlReader
open Mabel.Py Mabel.Paths Mabel.Dates Mabel.Tokens Mabel.Filters Mabel.Filters.Spec Mabel.Records Mabel.Expression.Spec Mabel.Evaluator
  Mabel.Evaluator.Spec Mabel.SqlReader.Spec Mabel.Listing Mabel.Naming
open Mabel.Expression (sampleLex_sane)
open Mabel.Sql.Spec (Query SaneChars GoodName)
open Mabel.Sql (asciiChars_sane good_of)
open Mabel.Tokenizer (asciiRe_sane)
open Mabel.Tokenizer.Spec (SaneRe)
open Mabel.Blobs (Lib Faithful)
open Mabel.History (Daily)
open Mabel.WriterInit (Nested)
open Mabel.Stream (Machine)
open Mabel.StreamStorage (Process Runs Made share dayWriter Sends Range handed demoS demo_range demoBlobIds)
open Mabel.EndToEnd (midnight zJob)
open Mabel.ObjectStore (Obj)
open Mabel.CloudStream (Places uploads storeEach)

section
variable {β : Type} {env : Env} (v : Which) (hre : SaneRe env.re) (hl : Sane env.lex) (hch : SaneChars env.ch) {w : Job}
  (hd : GoodName env.ch w.dataset) {ls : List (List Paths.Piece)} (hw : Daily w ls) (hn : Nested ls) (hfmt : w.format ≠ "text".toList)
  {S : DateTime → Prop} (N : Nat) (hN : 0 < N) (ps : Nat → Process Row β)
  (hset : ∀ i < N, ∃ date, (ps i).setup = dayWriter w date) (field : Row → Str → Targets.Field β) (lib : Lib Row)
  (records : List Row) (hp : ∀ i < N, Sends w field S lib records (ps i)) (m1 m2 : Nat → Machine Row)
  (hm : ∀ i < N, Runs (ps i) (m1 i) (m2 i)) (s : List (Obj Disk.Bytes)) (hplace : Places ls S s N ps m2) {first last : DateTime}
  {days : List DateTime} (hr : Range S first last days) (now : DateTime) (rnd : Str) (prefixes : List Str)
  (hallow : Reader.allowed prefixes w.dataset = true)
include hre hl hch hd hw hn hfmt hN hset hp hm hplace hr hallow

/-- **C116 (statements).**  In the situation of `C116_processes_partial`, statements and filters are answered as if the dataset were,
day by day, records of the processes of which those of one process are the first so many of the valid records appended by it on that
day, and among them all those appended up to the earlier moment if no writer was open at it and the blobs handed over by then have
been stored.

Missing for the full property: the statements that C49 leaves out, and what `C116_processes_partial` leaves out. -/
theorem C116_statements_partial :
    ∃ hist1 hist2 : Nat → List (Nat × StreamStorage.Call Row β),
      (∀ i < N, Made (ps i) (m1 i) (m2 i) (hist1 i) (hist2 i)) ∧
      ∀ us : List (Nat × Str × Str × Disk.Bytes), (∀ x ∈ us, x.1 < N) → (∀ i < N, share us i <+: uploads (ps i) (m2 i)) →
      ∃ (s' : List (Obj Disk.Bytes)) (rows : DateTime → List (Nat × Row)),
        storeEach v.service w.format s (us.map (·.2)) = .ok s' ∧
        (∀ i < N, ∀ t ∈ days, share (rows t) i <+: (ps i).appended (fun u => midnight u = t) (hist1 i ++ hist2 i)) ∧
        (∀ i < N, (m1 i).pool.writers = [] → (handed (m1 i).pool.store).length ≤ (share us i).length → ∀ t ∈ days,
            (ps i).appended (fun u => midnight u = t) (hist1 i) <+: share (rows t) i) ∧
        (∀ t, ∀ x ∈ rows t, x.1 < N) ∧
        ((NotFound (onCloud env v lib (daysReader w first last prefixes) now rnd s') w.dataset ∧ ∀ t ∈ days, rows t = []) ∨
          Answered (onCloud env v lib (daysReader w first last prefixes) now rnd s') w.dataset
            (days.flatMap fun t => (rows t).map (·.2))) := by
  obtain ⟨hist1, hist2, h1, hk⟩ := CloudStream.C116_processes_partial hw hn hfmt N hN ps hset field (allTrue lib) records
    (fun i hi => ⟨(hp i hi).format, (hp i hi).asked, faithful_allTrue (hp i hi).faithful, fun _ _ => rfl⟩) m1 m2 hm s
    hplace hr now rnd prefixes hallow (fun _ => 0)
  refine ⟨hist1, hist2, h1, fun us a1 a2 => ?_⟩
  obtain ⟨s', rows, e1, e2, -, g2, g3, -, g5, g6⟩ := hk us a1 a2
  exact ⟨s', rows, by cases v <;> assumption, g2, g3, g5, cloud_answers (flt := none) hre hl hch hd (g6 _ lister_of)⟩

end

/-- Two processes with the calls of `stream_done`, and identifiers apart: the hypotheses of `C116_statements_partial`. -/
example (v : Which) (now : DateTime) (rnd : Str) : ∃ m : Nat → Machine Row,
    ∃ (hist1 hist2 : Nat → List (Nat × StreamStorage.Call Row Unit)), ∀ i < 2,
      Made (streamProcess (if i = 0 then demoBlobIds else StreamStorage.otherIds)) (m i) (m i) (hist1 i) (hist2 i) ∧
      (m i).pool.writers = [] := by
  obtain ⟨m, h1, h2, h3, -, h5⟩ := stream_done
  have h6 := CloudStream.demo_places (ids := StreamStorage.otherIds) (by decide) (by unfold HexId; decide) (by decide) (by decide)
    (fun _ => (StreamStorage.atOnce 0).start) (by intro i _; exact Nat.zero_le _)
  have hplace : Places demoFolders demoS Cloud.demoObjs 2
      (fun i => streamProcess (if i = 0 then demoBlobIds else StreamStorage.otherIds)) (fun _ => m) :=
    ⟨h6.tidy, h6.empty, h6.bucket, h6.dot, fun i hi => h5.enough.trans (by
      show demoBlobIds.length ≤ List.length (if i = 0 then demoBlobIds else StreamStorage.otherIds)
      split <;> decide), h6.hex, h6.order, h6.apart⟩
  obtain ⟨hist1, hist2, h, -⟩ := C116_statements_partial (env := sampleEnv) v asciiRe_sane sampleLex_sane asciiChars_sane (w := zJob)
    (good_of _ (by decide +kernel)) History.daily WriterInit.demo_nested (by decide) 2 (by decide) _ (fun _ _ => ⟨none, rfl⟩)
    (fun _ _ => .one ()) streamLib storedRows (fun i _ => (stream_writes _).sends)
    (fun _ => m) (fun _ => m) (fun i _ => ⟨h1, h2, .refl _⟩) Cloud.demoObjs hplace demo_range now rnd ["tests/".toList] (by decide)
  exact ⟨fun _ => m, hist1, hist2, fun i hi => ⟨h i hi, h3⟩⟩

end Mabel.SqlReader
