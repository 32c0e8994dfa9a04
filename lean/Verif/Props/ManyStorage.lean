import Verif.Lemmas.ManyReach
import Verif.Props.FieldStorage

/-!
# Several processes with stream writers for one dataset, and processes that are started again: C91
-/

namespace Mabel.StreamStorage
open Mabel.Py Mabel.Paths Mabel.Naming Mabel.Spec Mabel.Listing Mabel.EndToEnd Mabel.Dates Mabel.History
open Mabel.Blobs (Lib Faithful Torn delivered Item readBlob Names formatOf BlobName)
open Mabel.WriterInit (Folders Nested)
open Mabel.Stream (Conf Machine Reach Pool run)
open Mabel.Stream.Spec (routed)
open Mabel.Text (sanitize)
open Mabel.Disk hiding Bytes
variable {ρ β : Type}

/-! ## The conditions -/

/-- A process has come to `m1`, where no call is under way, and then to `m2`. -/
structure Runs (p : Process ρ β) (m1 m2 : Machine ρ) : Prop where
  first : Reach p.conf p.start m1
  free : m1.owner = none
  later : Reach p.conf m1 m2

/-- There is room on the disk: nothing in the folders of the days `S` at first, and identifiers for the blobs of
each of the `N` processes, of which, be they of one process or of two, one comes before the other. -/
structure Rooms (ls : List (List Piece)) (S : DateTime → Prop) (d : Disk) (N : Nat) (ps : Nat → Process ρ β)
    (m : Nat → Machine ρ) : Prop where
  fresh : ∀ t, S t → Fresh (folderOf ls t) d
  nodup : d.names.Nodup
  enough : ∀ i < N, (handed (m i).pool.store).length ≤ (ps i).ids.length
  hex : ∀ i < N, ∀ x ∈ (ps i).ids, HexId x ∧ x ≠ []
  order : ∀ i < N, (ps i).ids.Pairwise Before
  apart : ∀ i < N, ∀ j < N, i ≠ j → ∀ x ∈ (ps i).ids, ∀ y ∈ (ps j).ids, Before x y ∨ Before y x

/-- The processes write what a reader of the dataset can read. -/
structure Writes (w : Job) (field : ρ → Str → Targets.Field β) (S : DateTime → Prop) (lib : Lib ρ) (records : List ρ)
    (p : Process ρ β) : Prop where
  format : p.conf.blob.format = formatOf w.format
  asked : Asked p.setup p.valid field S p.calls records
  readable : Readable p.conf.blob.codec lib records

/-- The same, with nothing asked of blobs that are cut short. -/
structure Sends (w : Job) (field : ρ → Str → Targets.Field β) (S : DateTime → Prop) (lib : Lib ρ) (records : List ρ)
    (p : Process ρ β) : Prop where
  format : p.conf.blob.format = formatOf w.format
  asked : Asked p.setup p.valid field S p.calls records
  faithful : Faithful p.conf.blob.codec lib records
  truthy : ∀ r ∈ records, lib.truthy r = true

theorem Writes.sends {w : Job} {field : ρ → Str → Targets.Field β} {S : DateTime → Prop} {lib : Lib ρ} {records : List ρ}
    {p : Process ρ β} (h : Writes w field S lib records p) : Sends w field S lib records p :=
  ⟨h.format, h.asked, h.readable.faithful, h.readable.truthy⟩

/-- The records appended by the threads of a process, in order, at (or for) times of which `q` is true. -/
abbrev Process.appended (p : Process ρ β) (q : DateTime → Prop) [DecidablePred q] (hist : List (Nat × Call ρ β)) : List ρ :=
  StreamStorage.appended p.setup.date p.valid q hist

/-- The calls that a process has made up to `m1` and from there to `m2`. -/
structure Made (p : Process ρ β) (m1 m2 : Machine ρ) (hist1 hist2 : List (Nat × Call ρ β)) : Prop where
  served : ∃ left1 left2, Served p.calls hist1 left1 ∧ Served left1 hist2 left2 ∧
    (∀ t, m1.todo t = (left1 t).map (op p.setup p.valid p.str)) ∧
    (∀ t, m2.todo t = (left2 t).map (op p.setup p.valid p.str))
  pool : m1.pool = run p.conf { clock := p.clock } (hist1.map fun x => op p.setup p.valid p.str x.2)

theorem Made.none {p : Process ρ β} {m : Machine ρ} {hist1 hist2 : List (Nat × Call ρ β)} (h : Made p m m hist1 hist2) :
    hist2 = [] := by
  obtain ⟨left1, left2, -, s2, t1, t2⟩ := h.served
  exact s2.none (fun t => by
    have := congrArg List.length ((t1 t).symm.trans (t2 t))
    simpa using this)

section
variable {w : Job} {ls es : List (List Piece)} {n : Nat} {flt : Option PartitionFilter} {subs chosen : List (List Str)}
  {S : DateTime → Prop}

/-- The whole way, for partitions by the time. -/
theorem many_timed (hw : Daily w ls) (hfmt : w.format ≠ "text".toList) (hy : Layout w ls n flt subs chosen)
    (hes : Timed es subs) (N : Nat) (hN : 0 < N) (ps : Nat → Process ρ β) (hsf : ∀ i < N, (ps i).setup.format = w.format)
    (hs : ∀ i < N, (ps i).setup.template = join ['/'] ((ls ++ es).map template))
    (field : ρ → Str → Targets.Field β) (lib : Lib ρ) (records : List ρ) (hp : ∀ i < N, Sends w field S lib records (ps i))
    (m1 m2 : Nat → Machine ρ) (hm : ∀ i < N, Runs (ps i) (m1 i) (m2 i)) (d : Disk) (hroom : Rooms ls S d N ps m2)
    {first last : DateTime} {days : List DateTime} (hr : Range S first last days)
    (now : DateTime) (rnd : Str) (prefixes : List Str) (hallow : Reader.allowed prefixes w.dataset = true) (hash : Str → Nat) :
    ∃ (hist1 hist2 : Nat → List (Nat × Call ρ β)) (ops : Nat → List Op),
      (∀ i < N, Made (ps i) (m1 i) (m2 i) (hist1 i) (hist2 i) ∧ (ps i).steps (m2 i) = .ok (ops i) ∧
        ∀ x ∈ handed (m2 i).pool.store, Goes ls subs S x.1) ∧
      ∀ os : List (Nat × Op), (∀ x ∈ os, x.1 < N) → (∀ i < N, share os i <+: ops i) →
      (∀ i < N, Torn (ps i).conf.blob.codec lib records ∨ AtBlob (ps i).setup (ps i).ids (m2 i).pool.store (share os i).length) →
      ∃ (d' : Disk) (rows : DateTime → List Str → List (Nat × ρ)), exec d (os.map (·.2)) = .ok d' ∧
        (∀ i < N, ∀ t ∈ days, ∀ sb ∈ chosen, share (rows t sb) i <+:
          (ps i).appended (fun u => midnight u = t ∧ folderOf es u = sb) (hist1 i ++ hist2 i)) ∧
        (∀ i < N, (m1 i).pool.writers = [] →
          Written (ps i).setup (ps i).ids (m1 i).pool.store (share os i).length → ∀ t ∈ days, ∀ sb ∈ chosen,
            (ps i).appended (fun u => midnight u = t ∧ folderOf es u = sb) (hist1 i) <+: share (rows t sb) i) ∧
        (∀ i < N, ∀ j < N, (∀ x ∈ (ps i).ids, ∀ y ∈ (ps j).ids, Before x y) → ∀ t ∈ days, ∀ sb ∈ chosen,
          (rows t sb).Pairwise (fun a b => ¬ (a.1 = j ∧ b.1 = i))) ∧
        (∀ t sb, ∀ x ∈ rows t sb, x.1 < N) ∧
        ((∀ i < N, ∀ t ∈ days, ∀ sb ∈ chosen,
            (ps i).appended (fun u => midnight u = t ∧ folderOf es u = sb) (hist1 i ++ hist2 i) = []) →
          Reader.openReader (rangeReader w first last prefixes flt) now rnd (diskBlobsAt d'.names) = .error .dataNotFound) ∧
        ((Reader.openReader (rangeReader w first last prefixes flt) now rnd (diskBlobsAt d'.names) = .error .dataNotFound ∧
            ∀ t ∈ days, ∀ sb ∈ chosen, rows t sb = []) ∨
          ∃ l, Reader.openReader (rangeReader w first last prefixes flt) now rnd (diskBlobsAt d'.names) = .ok (0, l) ∧
            Names l ∧ delivered hash lib {} (read d') l
              = (days.flatMap fun t => chosen.flatMap fun sb => (rows t sb).map (·.2)).map .row) := by
  have hS : ∀ t, S t → Day t := (hp 0 hN).asked.day
  obtain ⟨hist1, hist2, left1, left2, ops, hfacts, hk⟩ := many_whole hw hfmt hy hS N hN ps hsf (fun i hi => (hp i hi).format)
    (fun i hi t a ha r ts h => timed_goes hw hy hes (hs i hi) hS ((hp i hi).asked.ok t a ha) h) m1 m2
    (fun i hi => (hm i hi).first) (fun i hi => (hm i hi).free) (fun i hi => (hm i hi).later) d hroom.fresh hroom.nodup
    hroom.enough hroom.hex hroom.order hroom.apart hr.start hr.stop hr.order hr.all hr.among records
    (fun i hi => (hp i hi).asked.records) lib (fun i hi => (hp i hi).faithful) (hp 0 hN).truthy now rnd prefixes hallow hash
  refine ⟨hist1, hist2, ops, ?_, ?_⟩
  · intro i hi
    obtain ⟨s1, s2, t1, t2, hrun, ho, hgo⟩ := hfacts i hi
    exact ⟨⟨⟨left1 i, left2 i, s1, s2, t1, t2⟩, hrun⟩, ho, hgo⟩
  intro os h1 h2 h3
  obtain ⟨d', rows, g1, g2, g3, g4, g5, g6, g7⟩ := hk os h1 h2 h3
  have hok : ∀ i < N, ∀ x ∈ hist1 i ++ hist2 i, CallOK (ps i).setup (ps i).valid field S x.2 := fun i hi x hx =>
    (hp i hi).asked.ok _ _ (((hfacts i hi).1.append (hfacts i hi).2.1).mem hx)
  have hro : ∀ i < N, ∀ t ∈ days, ∀ sb ∈ chosen, ∀ hist : List (Nat × Call ρ β), hist ⊆ hist1 i ++ hist2 i →
      routed ((ps i).asks hist) (place ls t sb)
        = (ps i).appended (fun u => midnight u = t ∧ folderOf es u = sb) hist := fun i hi t ht sb hsb hist h =>
    routed_place hw hy hes (hs i hi) hS ((hr.all.mem t).1 ht).1 (hy.among sb hsb) hist (fun x hx => hok i hi x (h hx))
  refine ⟨d', rows, g1, ?_, ?_, g4, g5, ?_, g7⟩
  · intro i hi t ht sb hsb
    rw [← hro i hi t ht sb hsb _ (fun _ h => h)]
    exact g2 i hi t ht sb hsb
  · intro i hi he hwr t ht sb hsb
    rw [← hro i hi t ht sb hsb _ (List.subset_append_left _ _)]
    exact g3 i hi he hwr t ht sb hsb
  · intro hnone
    refine g6 ?_
    intro i hi t ht sb hsb
    rw [hro i hi t ht sb hsb _ (fun _ h => h)]
    exact hnone i hi t ht sb hsb

end

/-! ## A folder for each day -/

section
variable {w : Job} {ls : List (List Piece)} (hw : Daily w ls) (hn : Nested ls) (hfmt : w.format ≠ "text".toList)
  {S : DateTime → Prop} (N : Nat) (hN : 0 < N) (ps : Nat → Process ρ β)
  (hset : ∀ i < N, ∃ date, (ps i).setup = dayWriter w date) (field : ρ → Str → Targets.Field β) (lib : Lib ρ)
  (records : List ρ) (hp : ∀ i < N, Writes w field S lib records (ps i)) (m1 m2 : Nat → Machine ρ)
  (hm : ∀ i < N, Runs (ps i) (m1 i) (m2 i)) (d : Disk) (hroom : Rooms ls S d N ps m2) {first last : DateTime}
  {days : List DateTime} (hr : Range S first last days) (now : DateTime) (rnd : Str) (prefixes : List Str)
  (hallow : Reader.allowed prefixes w.dataset = true) (hash : Str → Nat)
include hw hn hfmt hN hset hp hm hroom hr hallow

/-- **C91 (processes).**  Threads of any number of processes call stream writers for one dataset, each process
with its own writer.  At one moment no call was under way in a process; now any may be, and the disk has taken
the first so many of the steps of each process, mixed with those of the others in any way: some may be dead,
some still at work, some started after others had died.  Then every step went well, and a reader of a range of
days delivers, day by day, records of the processes of which those of one process are the first so many of the
valid records appended by it on that day, in the order of the appends, and among them all those appended up to
the earlier moment if no writer was open at it (as after `finalize`) and all steps for what was stored by then
have been taken.  If the identifiers of one process all come before those of another, so do its records.  No
data is found only if there is none of this. -/
theorem C91_processes_partial :
    ∃ (hist1 hist2 : Nat → List (Nat × Call ρ β)) (ops : Nat → List Op),
      (∀ i < N, Made (ps i) (m1 i) (m2 i) (hist1 i) (hist2 i) ∧ (ps i).steps (m2 i) = .ok (ops i)) ∧
      ∀ os : List (Nat × Op), (∀ x ∈ os, x.1 < N) → (∀ i < N, share os i <+: ops i) →
      ∃ (d' : Disk) (rows : DateTime → List (Nat × ρ)), exec d (os.map (·.2)) = .ok d' ∧
        (∀ i < N, ∀ t ∈ days, share (rows t) i <+: (ps i).appended (fun u => midnight u = t) (hist1 i ++ hist2 i)) ∧
        (∀ i < N, (m1 i).pool.writers = [] →
          Written (ps i).setup (ps i).ids (m1 i).pool.store (share os i).length → ∀ t ∈ days,
            (ps i).appended (fun u => midnight u = t) (hist1 i) <+: share (rows t) i) ∧
        (∀ i < N, ∀ j < N, (∀ x ∈ (ps i).ids, ∀ y ∈ (ps j).ids, Before x y) → ∀ t ∈ days,
          (rows t).Pairwise (fun a b => ¬ (a.1 = j ∧ b.1 = i))) ∧
        (∀ t, ∀ x ∈ rows t, x.1 < N) ∧
        ((Reader.openReader (rangeReader w first last prefixes) now rnd (diskBlobsAt d'.names) = .error .dataNotFound ∧
            ∀ t ∈ days, rows t = []) ∨
          ∃ l, Reader.openReader (rangeReader w first last prefixes) now rnd (diskBlobsAt d'.names) = .ok (0, l) ∧
            Names l ∧ delivered hash lib {} (read d') l = (days.flatMap fun t => (rows t).map (·.2)).map .row) := by
  obtain ⟨hist1, hist2, ops, h1, hk⟩ := many_timed hw hfmt (layout_plain hw hn) timed_plain N hN ps
    (fun i hi => by obtain ⟨date, h⟩ := hset i hi; rw [h]; rfl)
    (fun i hi => by obtain ⟨date, h⟩ := hset i hi; rw [h]; exact day_template hw date hr.start)
    field lib records (fun i hi => (hp i hi).sends) m1 m2 hm d hroom hr now rnd prefixes hallow hash
  refine ⟨hist1, hist2, ops, fun i hi => ⟨(h1 i hi).1, (h1 i hi).2.1⟩, ?_⟩
  intro os a1 a2
  obtain ⟨d', rows, g1, g2, g3, g4, g5, -, g6⟩ := hk os a1 a2 (fun i hi => Or.inl (hp i hi).readable.torn)
  refine ⟨d', fun t => rows t [], g1, ?_, ?_, ?_, fun t => g5 t [], ?_⟩
  · intro i hi t ht
    have := g2 i hi t ht [] (by simp)
    rw [Process.appended, plain_congr] at this
    exact this
  · intro i hi he hwr t ht
    have := g3 i hi he hwr t ht [] (by simp)
    rw [Process.appended, plain_congr] at this
    exact this
  · intro i hi j hj hb t ht
    exact g4 i hi j hj hb t ht [] (by simp)
  · rcases g6 with ⟨g6, g7⟩ | ⟨l, g6, g7, g8⟩
    · exact Or.inl ⟨g6, fun t ht => g7 t ht [] (by simp)⟩
    · refine Or.inr ⟨l, g6, g7, ?_⟩
      rw [g8]
      simp

/-- **C91 (started again).**  A process with a stream writer is started again and again; each time it may come to
an end at any moment and with its blobs written up to any step, even in the middle of one.  A reader of a range
of days then delivers, day by day, what is left of each process in turn: the first so many of the valid records
it appended on that day, in order, and among them all those appended before a moment at which no writer was open
(as after `finalize`) if the steps for what was stored by then were taken. -/
theorem C91_started_again_partial (hseq : ∀ i < N, ∀ j < N, i < j → ∀ x ∈ (ps i).ids, ∀ y ∈ (ps j).ids, Before x y) :
    ∃ (hist1 hist2 : Nat → List (Nat × Call ρ β)) (ops : Nat → List Op),
      (∀ i < N, Made (ps i) (m1 i) (m2 i) (hist1 i) (hist2 i) ∧ (ps i).steps (m2 i) = .ok (ops i)) ∧
      ∀ k : Nat → Nat,
      ∃ (d' : Disk) (rows : Nat → DateTime → List ρ),
        exec d ((List.range N).flatMap fun i => (ops i).take (k i)) = .ok d' ∧
        (∀ i < N, ∀ t ∈ days, rows i t <+: (ps i).appended (fun u => midnight u = t) (hist1 i ++ hist2 i)) ∧
        (∀ i < N, (m1 i).pool.writers = [] → Written (ps i).setup (ps i).ids (m1 i).pool.store (k i) → ∀ t ∈ days,
            (ps i).appended (fun u => midnight u = t) (hist1 i) <+: rows i t) ∧
        ((Reader.openReader (rangeReader w first last prefixes) now rnd (diskBlobsAt d'.names) = .error .dataNotFound ∧
            ∀ i < N, ∀ t ∈ days, rows i t = []) ∨
          ∃ l, Reader.openReader (rangeReader w first last prefixes) now rnd (diskBlobsAt d'.names) = .ok (0, l) ∧
            Names l ∧
            delivered hash lib {} (read d') l = (days.flatMap fun t => (List.range N).flatMap fun i => rows i t).map .row) := by
  obtain ⟨hist1, hist2, ops, h1, hk⟩ := C91_processes_partial hw hn hfmt N hN ps hset field lib records hp m1 m2 hm d hroom hr now rnd
    prefixes hallow hash
  refine ⟨hist1, hist2, ops, h1, ?_⟩
  intro k
  let os : List (Nat × Op) := (List.range N).flatMap fun i => ((ops i).take (k i)).map fun o => (i, o)
  have hos : ∀ i < N, share os i = (ops i).take (k i) := by
    intro i hi
    have key : ∀ m, share ((List.range m).flatMap fun i => ((ops i).take (k i)).map fun o => (i, o)) i
        = if i < m then (ops i).take (k i) else [] := by
      intro m
      induction m with
      | zero => rfl
      | succ m ih =>
        rw [List.range_succ, List.flatMap_append, share_append, ih, List.flatMap_singleton, share_marked]
        by_cases h : m = i
        · subst h; simp
        · rw [if_neg h, List.append_nil]
          by_cases h2 : i < m
          · rw [if_pos h2, if_pos (by omega)]
          · rw [if_neg h2, if_neg (by omega)]
    show share ((List.range N).flatMap _) i = _
    rw [key, if_pos hi]
  have hflat : os.map (·.2) = (List.range N).flatMap fun i => (ops i).take (k i) := by
    simp only [os, List.map_flatMap]
    apply List.flatMap_congr
    intro i _
    rw [List.map_map]
    exact List.map_id _
  obtain ⟨d', rows, g1, g2, g3, g4, g5, g6⟩ := hk os
    (by
      intro x hx
      obtain ⟨i, hi, hx⟩ := List.mem_flatMap.1 hx
      obtain ⟨o, -, rfl⟩ := List.mem_map.1 hx
      exact List.mem_range.1 hi)
    (fun i hi => by rw [hos i hi]; exact List.take_prefix _ _)
  rw [hflat] at g1
  have hsplit : ∀ t ∈ days, (rows t).map (·.2) = (List.range N).flatMap fun i => share (rows t) i := by
    intro t ht
    refine shares_in_order _ N (g5 t) ?_
    have key : ∀ l : List (Nat × ρ), (∀ x ∈ l, x.1 < N) →
        (∀ i < N, ∀ j < N, i < j → l.Pairwise (fun a b => ¬ (a.1 = j ∧ b.1 = i))) → l.Pairwise (fun a b => a.1 ≤ b.1) := by
      intro l
      induction l with
      | nil => intros; exact List.Pairwise.nil
      | cons a l ih =>
        intro hb h
        refine List.pairwise_cons.2 ⟨?_, ih (fun x hx => hb x (by simp [hx]))
          (fun i hi j hj hij => (List.pairwise_cons.1 (h i hi j hj hij)).2)⟩
        intro b hbl
        by_contra hlt
        exact (List.pairwise_cons.1 (h b.1 (hb b (by simp [hbl])) a.1 (hb a (by simp)) (by omega))).1 b hbl ⟨rfl, rfl⟩
    exact key _ (g5 t) (fun i hi j hj hij => g4 i hi j hj (hseq i hi j hj hij) t ht)
  refine ⟨d', fun i t => share (rows t) i, g1, g2, ?_, ?_⟩
  · intro i hi he hwr t ht
    refine g3 i hi he ?_ t ht
    intro o ho
    have hlen := hwr o ho
    rw [hos i hi, List.length_take]
    refine Nat.le_min.2 ⟨hlen, ?_⟩
    obtain ⟨x, hx, hxo⟩ := diskOps_grows (reach_grows (hm i hi).later) (h1 i hi).2
    rw [Except.ok.inj (ho.symm.trans hx)]
    exact hxo.length_le
  · rcases g6 with ⟨g6, g7⟩ | ⟨l, g6, g7, g8⟩
    · refine Or.inl ⟨g6, fun i _ t ht => ?_⟩
      simp only [g7 t ht]; rfl
    · refine Or.inr ⟨l, g6, g7, ?_⟩
      rw [g8]
      congr 1
      exact List.flatMap_congr hsplit

/-- **C91 (all is read).**  No call is under way in any of the processes and no writer is open, as after
`finalize`, and the disk has taken all their steps, mixed in any way.  A reader of a range of days delivers, day by
day, the valid records appended by all the processes on that day, each once and those of one process in the order
of its appends; it finds no data if there are none. -/
theorem C91_all_is_read_partial (hsame : m1 = m2) (hempty : ∀ i < N, (m2 i).pool.writers = []) :
    ∃ (hist : Nat → List (Nat × Call ρ β)) (ops : Nat → List Op),
      (∀ i < N, Made (ps i) (m2 i) (m2 i) (hist i) [] ∧ (ps i).steps (m2 i) = .ok (ops i)) ∧
      ∀ os : List (Nat × Op), (∀ x ∈ os, x.1 < N) → (∀ i < N, share os i = ops i) →
      ∃ (d' : Disk) (rows : DateTime → List (Nat × ρ)), exec d (os.map (·.2)) = .ok d' ∧
        (∀ i < N, ∀ t ∈ days, share (rows t) i = (ps i).appended (fun u => midnight u = t) (hist i)) ∧
        (∀ t, ∀ x ∈ rows t, x.1 < N) ∧
        ((∀ t ∈ days, rows t = []) →
          Reader.openReader (rangeReader w first last prefixes) now rnd (diskBlobsAt d'.names) = .error .dataNotFound) ∧
        ((∃ t ∈ days, rows t ≠ []) → ∃ l,
          Reader.openReader (rangeReader w first last prefixes) now rnd (diskBlobsAt d'.names) = .ok (0, l) ∧ Names l ∧
            delivered hash lib {} (read d') l = (days.flatMap fun t => (rows t).map (·.2)).map .row) := by
  subst hsame
  obtain ⟨hist1, hist2, ops, h1, hk⟩ := many_timed hw hfmt (layout_plain hw hn) timed_plain N hN ps
    (fun i hi => by obtain ⟨date, h⟩ := hset i hi; rw [h]; rfl)
    (fun i hi => by obtain ⟨date, h⟩ := hset i hi; rw [h]; exact day_template hw date hr.start)
    field lib records (fun i hi => (hp i hi).sends) m1 m1 hm d hroom hr now rnd prefixes hallow hash
  have hnone : ∀ i < N, hist2 i = [] := fun i hi => (h1 i hi).1.none
  refine ⟨hist1, ops, fun i hi => ⟨hnone i hi ▸ (h1 i hi).1, (h1 i hi).2.1⟩, ?_⟩
  intro os a1 a2
  obtain ⟨d', rows, g1, g2, g3, -, g5, g6, g7⟩ := hk os a1 (fun i hi => by rw [a2 i hi]; exact List.prefix_rfl)
    (fun i hi => Or.inl (hp i hi).readable.torn)
  have hrows : ∀ i < N, ∀ t ∈ days, share (rows t []) i = (ps i).appended (fun u => midnight u = t) (hist1 i) := by
    intro i hi t ht
    have b1 := g2 i hi t ht [] (by simp)
    have b2 := g3 i hi (hempty i hi) (by
      intro o ho
      rw [a2 i hi]
      exact (congrArg List.length (Except.ok.inj (ho.symm.trans (h1 i hi).2.1))).le) t ht [] (by simp)
    rw [Process.appended, plain_congr] at b1 b2
    rw [hnone i hi, List.append_nil] at b1
    exact b1.eq_of_length (Nat.le_antisymm b1.length_le b2.length_le)
  refine ⟨d', fun t => rows t [], g1, hrows, fun t => g5 t [], ?_, ?_⟩
  · intro h
    refine g6 ?_
    intro i hi t ht sb hsb
    rw [List.mem_singleton.1 hsb, hnone i hi, List.append_nil, Process.appended, plain_congr]
    refine (hrows i hi t ht).symm.trans ?_
    have := h t ht
    simp only at this
    rw [this]; rfl
  · rintro ⟨t, ht, h⟩
    rcases g7 with ⟨-, g7⟩ | ⟨l, g7, g8, g9⟩
    · exact absurd (g7 t ht [] (by simp)) h
    · refine ⟨l, g7, g8, ?_⟩
      rw [g9]
      simp

end

/-! ## A folder for each hour -/

section
variable {w : Job} {ls : List (List Piece)} (hw : Daily w ls)
  (hby : ∀ t, Day t → contains "by_".toList (join ['/'] (folderOf ls t)) = false) (hfmt : w.format ≠ "text".toList)
  {S : DateTime → Prop} (N : Nat) (hN : 0 < N) (ps : Nat → Process ρ β)
  (hset : ∀ i < N, ∃ date, (ps i).setup = hourWriter w date) (field : ρ → Str → Targets.Field β) (lib : Lib ρ)
  (records : List ρ) (hp : ∀ i < N, Writes w field S lib records (ps i)) (m1 m2 : Nat → Machine ρ)
  (hm : ∀ i < N, Runs (ps i) (m1 i) (m2 i)) (d : Disk) (hroom : Rooms ls S d N ps m2) {first last : DateTime}
  {days : List DateTime} (hr : Range S first last days) (now : DateTime) (rnd : Str) (prefixes : List Str)
  (hallow : Reader.allowed prefixes w.dataset = true) (hash : Str → Nat)
include hw hby hfmt hN hset hp hm hroom hr hallow

/-- **C91 (by the hour).**  As `C91_processes_partial`, of writers that partition each day by the hour: what is delivered
of a day is in the order of the hours. -/
theorem C91_hours_partial :
    ∃ (hist1 hist2 : Nat → List (Nat × Call ρ β)) (ops : Nat → List Op),
      (∀ i < N, Made (ps i) (m1 i) (m2 i) (hist1 i) (hist2 i) ∧ (ps i).steps (m2 i) = .ok (ops i)) ∧
      ∀ os : List (Nat × Op), (∀ x ∈ os, x.1 < N) → (∀ i < N, share os i <+: ops i) →
      ∃ (d' : Disk) (rows : DateTime → Nat → List (Nat × ρ)), exec d (os.map (·.2)) = .ok d' ∧
        (∀ i < N, ∀ t ∈ days, ∀ h < 24,
          share (rows t h) i <+: (ps i).appended (fun u => midnight u = t ∧ u.hour = h) (hist1 i ++ hist2 i)) ∧
        (∀ i < N, (m1 i).pool.writers = [] →
          Written (ps i).setup (ps i).ids (m1 i).pool.store (share os i).length → ∀ t ∈ days, ∀ h < 24,
            (ps i).appended (fun u => midnight u = t ∧ u.hour = h) (hist1 i) <+: share (rows t h) i) ∧
        (∀ i < N, ∀ j < N, (∀ x ∈ (ps i).ids, ∀ y ∈ (ps j).ids, Before x y) → ∀ t ∈ days, ∀ h < 24,
          (rows t h).Pairwise (fun a b => ¬ (a.1 = j ∧ b.1 = i))) ∧
        (∀ t h, ∀ x ∈ rows t h, x.1 < N) ∧
        ((Reader.openReader (rangeReader w first last prefixes) now rnd (diskBlobsAt d'.names) = .error .dataNotFound ∧
            ∀ t ∈ days, ∀ h < 24, rows t h = []) ∨
          ∃ l, Reader.openReader (rangeReader w first last prefixes) now rnd (diskBlobsAt d'.names) = .ok (0, l) ∧
            Names l ∧ delivered hash lib {} (read d') l
              = (days.flatMap fun t => (List.range 24).flatMap fun h => (rows t h).map (·.2)).map .row) := by
  obtain ⟨hist1, hist2, ops, h1, hk⟩ := many_timed hw hfmt (layout_hour hw hby) timed_hour N hN ps
    (fun i hi => by obtain ⟨date, h⟩ := hset i hi; rw [h]; rfl)
    (fun i hi => by obtain ⟨date, h⟩ := hset i hi; rw [h]; exact hour_template hw date hr.start)
    field lib records (fun i hi => (hp i hi).sends) m1 m2 hm d hroom hr now rnd prefixes hallow hash
  refine ⟨hist1, hist2, ops, fun i hi => ⟨(h1 i hi).1, (h1 i hi).2.1⟩, ?_⟩
  intro os a1 a2
  obtain ⟨d', rows, g1, g2, g3, g4, g5, -, g6⟩ := hk os a1 a2 (fun i hi => Or.inl (hp i hi).readable.torn)
  have hmem : ∀ h < 24, hourFolders h ∈ (List.range 24).map hourFolders :=
    fun h hh => List.mem_map.2 ⟨h, List.mem_range.2 hh, rfl⟩
  refine ⟨d', fun t h => rows t (hourFolders h), g1, ?_, ?_, ?_, fun t h => g5 t _, ?_⟩
  · intro i hi t ht h hh
    obtain ⟨left1, left2, s1, s2, -, -⟩ := (h1 i hi).1.served
    have := g2 i hi t ht _ (hmem h hh)
    rw [Process.appended, hour_congr (hp i hi).asked (s1.append s2) hh] at this
    exact this
  · intro i hi he hwr t ht h hh
    obtain ⟨left1, left2, s1, s2, -, -⟩ := (h1 i hi).1.served
    have := g3 i hi he hwr t ht _ (hmem h hh)
    rw [Process.appended, hour_congr (hp i hi).asked s1 hh] at this
    exact this
  · intro i hi j hj hb t ht h hh
    exact g4 i hi j hj hb t ht _ (hmem h hh)
  · rcases g6 with ⟨g6, g7⟩ | ⟨l, g6, g7, g8⟩
    · exact Or.inl ⟨g6, fun t ht h hh => g7 t ht _ (hmem h hh)⟩
    · refine Or.inr ⟨l, g6, g7, ?_⟩
      rw [g8]
      simp only [List.flatMap_map]

end

/-! ## A folder for each value of a field -/

section
variable {w : Job} {ls : List (List Piece)} (hw : Daily w ls)
  (hby : ∀ t, Day t → contains "by_".toList (join ['/'] (folderOf ls t)) = false) (hfmt : w.format ≠ "text".toList)
  {S : DateTime → Prop} (N : Nat) (hN : 0 < N) (ps : Nat → Process ρ β) (F : Str)
  (hset : ∀ i < N, ∃ date, (ps i).setup = fieldWriter w F date) (str : β → Str) (hstr : ∀ i < N, (ps i).str = str)
  (field : ρ → Str → Targets.Field β) (lib : Lib ρ)
  (records : List ρ) (hp : ∀ i < N, Sends w field S lib records (ps i)) (m1 m2 : Nat → Machine ρ)
  (hm : ∀ i < N, Runs (ps i) (m1 i) (m2 i)) (d : Disk) (hroom : Rooms ls S d N ps m2) {first last : DateTime}
  {days : List DateTime} (hr : Range S first last days) (now : DateTime) (rnd : Str) (prefixes : List Str)
  (hallow : Reader.allowed prefixes w.dataset = true) (hash : Str → Nat)
  (flt : PartitionFilter) (hflt : Asks F flt) (hone : OneValue str field F flt.value records)
include hw hby hfmt hN hset hstr hp hm hroom hr hallow hflt hone

/-- The whole way, for partitions by a field. -/
theorem many_field :
    ∃ (hist1 hist2 : Nat → List (Nat × Call ρ β)) (ops : Nat → List Op),
      (∀ i < N, Made (ps i) (m1 i) (m2 i) (hist1 i) (hist2 i) ∧ (ps i).steps (m2 i) = .ok (ops i) ∧
        ∀ x ∈ handed (m2 i).pool.store, Goes ls ((fieldValues str field F flt.value records).map (fieldFolders F)) S x.1) ∧
      ∀ os : List (Nat × Op), (∀ x ∈ os, x.1 < N) → (∀ i < N, share os i <+: ops i) →
      (∀ i < N, Torn (ps i).conf.blob.codec lib records ∨ AtBlob (ps i).setup (ps i).ids (m2 i).pool.store (share os i).length) →
      ∃ (d' : Disk) (rows : DateTime → List (Nat × ρ)), exec d (os.map (·.2)) = .ok d' ∧
        (∀ i < N, ∀ t ∈ days, share (rows t) i <+:
          appended (ps i).setup.date (fun r => (ps i).valid r && has str field F flt.value r) (fun u => midnight u = t)
            (hist1 i ++ hist2 i)) ∧
        (∀ i < N, (m1 i).pool.writers = [] →
          Written (ps i).setup (ps i).ids (m1 i).pool.store (share os i).length → ∀ t ∈ days,
            appended (ps i).setup.date (fun r => (ps i).valid r && has str field F flt.value r) (fun u => midnight u = t)
              (hist1 i) <+: share (rows t) i) ∧
        (∀ i < N, ∀ j < N, (∀ x ∈ (ps i).ids, ∀ y ∈ (ps j).ids, Before x y) → ∀ t ∈ days,
          (rows t).Pairwise (fun a b => ¬ (a.1 = j ∧ b.1 = i))) ∧
        (∀ t, ∀ x ∈ rows t, x.1 < N) ∧
        ((Reader.openReader (rangeReader w first last prefixes (some flt)) now rnd (diskBlobsAt d'.names)
              = .error .dataNotFound ∧ ∀ t ∈ days, rows t = []) ∨
          ∃ l, Reader.openReader (rangeReader w first last prefixes (some flt)) now rnd (diskBlobsAt d'.names) = .ok (0, l) ∧
            Names l ∧ delivered hash lib {} (read d') l = (days.flatMap fun t => (rows t).map (·.2)).map .row) := by
  have hS : ∀ t, S t → Day t := (hp 0 hN).asked.day
  have hF := hflt.name
  have hs : ∀ i < N, (ps i).setup.template = join ['/'] ((ls ++ fieldPieces F).map template) ++ '{' :: (F ++ ['}']) := by
    intro i hi
    obtain ⟨date, h⟩ := hset i hi
    rw [h]; exact field_template hw F date hr.start
  have hy := layout_field hw hby hF (field_values_safe (str := str) (field := field) (F := F) (x := flt.value) (records := records))
    flt hflt.field hflt.op (by simp [fieldValues]) hflt.value
  obtain ⟨hist1, hist2, left1, left2, ops, hfacts, hk⟩ := many_whole hw hfmt hy hS N hN ps
    (fun i hi => by obtain ⟨date, h⟩ := hset i hi; rw [h]; rfl) (fun i hi => (hp i hi).format)
    (fun i hi t a hmem r ts h => field_goes hw hF (hs i hi) hS ((hp i hi).asked.ok t a hmem)
      (fun now r names combos e => (hp i hi).asked.records t now r names combos (e ▸ hmem)) (hstr i hi ▸ h)) m1 m2
    (fun i hi => (hm i hi).first) (fun i hi => (hm i hi).free) (fun i hi => (hm i hi).later) d hroom.fresh hroom.nodup
    hroom.enough hroom.hex hroom.order hroom.apart hr.start hr.stop hr.order hr.all hr.among records
    (fun i hi => (hp i hi).asked.records) lib (fun i hi => (hp i hi).faithful) (hp 0 hN).truthy now rnd prefixes hallow hash
  refine ⟨hist1, hist2, ops, ?_, ?_⟩
  · intro i hi
    obtain ⟨s1, s2, t1, t2, hrun, ho, hgo⟩ := hfacts i hi
    exact ⟨⟨⟨left1 i, left2 i, s1, s2, t1, t2⟩, hrun⟩, ho, hgo⟩
  intro os a1 a2 a3
  obtain ⟨d', rows, g1, g2, g3, g4, g5, -, g7⟩ := hk os a1 a2 a3
  have hmem : ∀ i < N, ∀ x ∈ hist1 i ++ hist2 i, x.2 ∈ (ps i).calls x.1 := fun i hi x hx =>
    ((hfacts i hi).1.append (hfacts i hi).2.1).mem hx
  have hro : ∀ i < N, ∀ t ∈ days, ∀ hist : List (Nat × Call ρ β), hist ⊆ hist1 i ++ hist2 i →
      routed ((ps i).asks hist) (place ls t (fieldFolders F (sanitize flt.value)))
        = appended (ps i).setup.date (fun r => (ps i).valid r && has str field F flt.value r) (fun u => midnight u = t) hist :=
    fun i hi t ht hist h => by
      have := field_routed (str := str) hw hF hy (hs i hi) hS hone ((hr.all.mem t).1 ht).1 hist
        (fun x hx => (hp i hi).asked.ok _ _ (hmem i hi x (h hx)))
        (fun t now r names combos hx => (hp i hi).asked.records t now r names combos (hmem i hi _ (h hx)))
      rw [← this, Process.asks, hstr i hi]
  refine ⟨d', fun t => rows t (fieldFolders F (sanitize flt.value)), g1, ?_, ?_, ?_, fun t => g5 t _, ?_⟩
  · intro i hi t ht
    rw [← hro i hi t ht _ (fun _ h => h)]
    exact g2 i hi t ht _ (by simp)
  · intro i hi he hwr t ht
    rw [← hro i hi t ht _ (List.subset_append_left _ _)]
    exact g3 i hi he hwr t ht _ (by simp)
  · intro i hi j hj hb t ht
    exact g4 i hi j hj hb t ht _ (by simp)
  · rcases g7 with ⟨g6, g7⟩ | ⟨l, g6, g7, g8⟩
    · exact Or.inl ⟨g6, fun t ht => g7 t ht _ (by simp)⟩
    · exact Or.inr ⟨l, g6, g7, by rw [g8]; simp⟩

end

section
variable {w : Job} {ls : List (List Piece)} (hw : Daily w ls)
  (hby : ∀ t, Day t → contains "by_".toList (join ['/'] (folderOf ls t)) = false) (hfmt : w.format ≠ "text".toList)
  {S : DateTime → Prop} (N : Nat) (hN : 0 < N) (ps : Nat → Process ρ β) (F : Str)
  (hset : ∀ i < N, ∃ date, (ps i).setup = fieldWriter w F date) (str : β → Str) (hstr : ∀ i < N, (ps i).str = str)
  (field : ρ → Str → Targets.Field β) (lib : Lib ρ)
  (records : List ρ) (hp : ∀ i < N, Writes w field S lib records (ps i)) (m1 m2 : Nat → Machine ρ)
  (hm : ∀ i < N, Runs (ps i) (m1 i) (m2 i)) (d : Disk) (hroom : Rooms ls S d N ps m2) {first last : DateTime}
  {days : List DateTime} (hr : Range S first last days) (now : DateTime) (rnd : Str) (prefixes : List Str)
  (hallow : Reader.allowed prefixes w.dataset = true) (hash : Str → Nat)
  (flt : PartitionFilter) (hflt : Asks F flt) (hone : OneValue str field F flt.value records)
include hw hby hfmt hN hset hstr hp hm hroom hr hallow hflt hone

/-- **C91 (by a field).**  As `C91_processes_partial`, of writers that partition by a field, and a reader with a filter
for a value of it: the records are those with this value.  Missing, as for C90, are the values and names of which
the filter does not deliver the records (`C90_…_fails`). -/
theorem C91_filter_partial :
    ∃ (hist1 hist2 : Nat → List (Nat × Call ρ β)) (ops : Nat → List Op),
      (∀ i < N, Made (ps i) (m1 i) (m2 i) (hist1 i) (hist2 i) ∧ (ps i).steps (m2 i) = .ok (ops i)) ∧
      ∀ os : List (Nat × Op), (∀ x ∈ os, x.1 < N) → (∀ i < N, share os i <+: ops i) →
      ∃ (d' : Disk) (rows : DateTime → List (Nat × ρ)), exec d (os.map (·.2)) = .ok d' ∧
        (∀ i < N, ∀ t ∈ days, share (rows t) i <+:
          appended (ps i).setup.date (fun r => (ps i).valid r && has str field F flt.value r) (fun u => midnight u = t)
            (hist1 i ++ hist2 i)) ∧
        (∀ i < N, (m1 i).pool.writers = [] →
          Written (ps i).setup (ps i).ids (m1 i).pool.store (share os i).length → ∀ t ∈ days,
            appended (ps i).setup.date (fun r => (ps i).valid r && has str field F flt.value r) (fun u => midnight u = t)
              (hist1 i) <+: share (rows t) i) ∧
        (∀ i < N, ∀ j < N, (∀ x ∈ (ps i).ids, ∀ y ∈ (ps j).ids, Before x y) → ∀ t ∈ days,
          (rows t).Pairwise (fun a b => ¬ (a.1 = j ∧ b.1 = i))) ∧
        (∀ t, ∀ x ∈ rows t, x.1 < N) ∧
        ((Reader.openReader (rangeReader w first last prefixes (some flt)) now rnd (diskBlobsAt d'.names)
              = .error .dataNotFound ∧ ∀ t ∈ days, rows t = []) ∨
          ∃ l, Reader.openReader (rangeReader w first last prefixes (some flt)) now rnd (diskBlobsAt d'.names) = .ok (0, l) ∧
            Names l ∧ delivered hash lib {} (read d') l = (days.flatMap fun t => (rows t).map (·.2)).map .row) := by
  obtain ⟨hist1, hist2, ops, h1, hk⟩ := many_field hw hby hfmt N hN ps F hset str hstr field lib records (fun i hi => (hp i hi).sends)
    m1 m2 hm d hroom hr now rnd prefixes hallow hash flt hflt hone
  exact ⟨hist1, hist2, ops, fun i hi => ⟨(h1 i hi).1, (h1 i hi).2.1⟩,
    fun os a1 a2 => hk os a1 a2 (fun i hi => Or.inl (hp i hi).readable.torn)⟩

end

/-! ## A concrete case -/

/-- The process of `demoCalls`, with identifiers of its own. -/
def demoProcess (ids : List Str) : Process (Fin 10) Unit :=
  { setup := dayWriter zJob none, conf := demoConf, valid := demoValid, str := fun _ => [], calls := demoCalls,
    clock := [0, 1, 2, 3, 4], ids := ids }

/-- Identifiers made by another process at the same times. -/
def otherIds : List Str := ["1a-22".toList, "1b-22".toList, "1c-22".toList, "1d-22".toList, "1e-22".toList, "2a-22".toList]

/-- Identifiers made later. -/
def laterIds : List Str := ["3a-1".toList, "3b-1".toList, "3c-1".toList, "3d-1".toList, "3e-1".toList, "4a-1".toList]

/-- Two processes that make identifiers at the same times. -/
def atOnce (i : Nat) : Process (Fin 10) Unit := demoProcess (if i = 0 then demoBlobIds else otherIds)

/-- A process that is started again. -/
def again (i : Nat) : Process (Fin 10) Unit := demoProcess (if i = 0 then demoBlobIds else laterIds)

theorem demo_writes (ids : List Str) :
    Writes zJob (fun _ _ => .one ()) demoS tornLib [1, 2, 3, 4, 7] (demoProcess ids) where
  format := rfl
  asked := demo_asked _ (Or.inl rfl)
  readable := torn_readable _

theorem demo_rooms {ids : List Str} (h1 : ids.length = 6) (h2 : ∀ x ∈ ids, HexId x ∧ x ≠ []) (h3 : ids.Pairwise Before)
    (h4 : ∀ x ∈ demoBlobIds, ∀ y ∈ ids, Before x y ∨ Before y x) (m : Nat → Machine (Fin 10))
    (hm : ∀ i < 2, (handed (m i).pool.store).length ≤ 6) :
    Rooms demoFolders demoS demoStart 2 (fun i => demoProcess (if i = 0 then demoBlobIds else ids)) m where
  fresh := (demo_room 0 (by decide)).fresh
  nodup := (demo_room 0 (by decide)).nodup
  enough := by
    intro i hi
    refine (hm i hi).trans ?_
    show 6 ≤ List.length (if i = 0 then demoBlobIds else ids)
    split
    · decide
    · omega
  hex := by
    intro i hi
    show ∀ x ∈ (if i = 0 then demoBlobIds else ids), _
    split
    · exact (demo_room 0 (by decide)).hex
    · exact h2
  order := by
    intro i hi
    show List.Pairwise _ (if i = 0 then demoBlobIds else ids)
    split
    · exact (demo_room 0 (by decide)).order
    · exact h3
  apart := by
    intro i hi j hj hij
    show ∀ x ∈ (if i = 0 then demoBlobIds else ids), ∀ y ∈ (if j = 0 then demoBlobIds else ids), _
    by_cases h : i = 0
    · rw [if_pos h, if_neg (by omega)]
      exact h4
    · rw [if_neg h, if_pos (by omega)]
      exact fun x hx y hy => (h4 y hy x hx).symm

/-- Non-vacuity: of two processes at once, one has been finalized, and the other is in the middle of a call; of
its records one blob has been handed over. -/
example : ∃ m1 m2 : Nat → Machine (Fin 10), (∀ i < 2, Runs (atOnce i) (m1 i) (m2 i)) ∧
    (m1 0).pool.writers = [] ∧ (handed (m1 0).pool.store).length = 4 ∧
    (m2 1).owner ≠ none ∧ (handed (m2 1).pool.store).length = 1 ∧ Rooms demoFolders demoS demoStart 2 atOnce m2 := by
  obtain ⟨m, h1, h2⟩ := demo_after (s := dayWriter zJob none)
    (turns := List.replicate 4 0 ++ List.replicate 8 1 ++ List.replicate 6 2 ++ List.replicate 15 0)
    (P := fun m => m.owner.isNone && m.pool.writers.isEmpty && (handed m.pool.store).length == 4) (by decide +kernel)
  obtain ⟨n, h3, h4⟩ := demo_after (s := dayWriter zJob none)
    (turns := List.replicate 4 0 ++ List.replicate 8 1 ++ List.replicate 6 2 ++ List.replicate 6 0)
    (P := fun m => m.owner.isSome && (handed m.pool.store).length == 1) (by decide +kernel)
  simp only [Bool.and_eq_true, Option.isNone_iff_eq_none, List.isEmpty_iff, beq_iff_eq] at h2 h4
  refine ⟨fun i => if i = 0 then m else (atOnce 1).start, fun i => if i = 0 then m else n, ?_, h2.1.2, h2.2, ?_, h4.2, ?_⟩
  · intro i hi
    by_cases h : i = 0
    · subst h
      exact ⟨h1, h2.1.1, .refl _⟩
    · obtain rfl : i = 1 := by omega
      exact ⟨.refl _, rfl, h3⟩
  · intro h
    have := h4.1
    rw [show n.owner = none from h] at this
    cases this
  · refine demo_rooms (by decide) (by unfold HexId; decide) (by decide) (by decide) _ ?_
    intro i hi
    by_cases h : i = 0
    · subst h
      exact h2.2.le.trans (by decide)
    · obtain rfl : i = 1 := by omega
      exact h4.2.le.trans (by decide)

/-- The other hypotheses hold as well. -/
example (m1 m2 : Nat → Machine (Fin 10)) (h : ∀ i < 2, Runs (atOnce i) (m1 i) (m2 i))
    (hr : Rooms demoFolders demoS demoStart 2 atOnce m2) (now : DateTime) (rnd : Str) (hash : Str → Nat) :=
  C91_processes_partial daily WriterInit.demo_nested (by decide) 2 (by decide) atOnce (fun _ _ => ⟨none, rfl⟩) (fun _ _ => .one ())
    tornLib [1, 2, 3, 4, 7] (fun _ _ => demo_writes _) m1 m2 h demoStart hr demo_range now rnd ["tests/".toList] (by decide) hash

/-- The same of a process that is started again after it has died in the middle of a call. -/
example (m1 m2 : Nat → Machine (Fin 10)) (h : ∀ i < 2, Runs (again i) (m1 i) (m2 i))
    (hr : ∀ i < 2, (handed (m2 i).pool.store).length ≤ 6) (now : DateTime) (rnd : Str) (hash : Str → Nat) :=
  C91_started_again_partial daily WriterInit.demo_nested (by decide) 2 (by decide) again (fun _ _ => ⟨none, rfl⟩) (fun _ _ => .one ())
    tornLib [1, 2, 3, 4, 7] (fun _ _ => demo_writes _) m1 m2 h demoStart
    (demo_rooms (by decide) (by unfold HexId; decide) (by decide) (by decide) m2 hr) demo_range now rnd ["tests/".toList]
    (by decide) hash (fun i hi j hj hij => by
      obtain rfl : i = 0 := by omega
      obtain rfl : j = 1 := by omega
      decide)

/-! ## Where it fails -/

/-- What a reader of three days delivers after two processes have each made these calls to a stream writer and
made these identifiers, if it finds data: the steps of the first process are taken, then those of the second. -/
def readTwo (ids1 ids2 : List Str) (calls1 calls2 : List (Call (Fin 10) Unit)) : Option (List (Item (Fin 10))) :=
  let pool := fun calls => run demoConf { clock := [0, 1, 2, 3, 4] } (calls.map (op (dayWriter zJob none) demoValid fun _ => []))
  match diskOps (dayWriter zJob none) ids1 (pool calls1).store, diskOps (dayWriter zJob none) ids2 (pool calls2).store with
  | .ok a, .ok b =>
    match exec demoStart (a ++ b) with
    | .error _ => none
    | .ok d =>
      match Reader.openReader (rangeReader zJob feb28 mar1 ["tests/".toList]) feb28 [] (diskBlobsAt d.names) with
      | .error _ => none
      | .ok (_, l) => some (delivered (fun _ => 0) tornLib {} (read d) l)
  | _, _ => none

/-- It works. -/
example : readTwo ["1a-1".toList] ["1a-22".toList] [.append morning 1 [] [[]], .finalize] [.append morning 2 [] [[]], .finalize]
    = some [.row 1, .row 2] := by decide +kernel

/-- **The same identifier**: two processes with the same process number, on machines that say they have the same
address (as containers may), store a blob at the same time.  Both have been finalized without an error, and the
record of the first is lost. -/
theorem C91_same_identifier_fails :
    readTwo ["1a-1".toList] ["1a-1".toList] [.append morning 1 [] [[]], .finalize] [.append morning 2 [] [[]], .finalize]
      = some [.row 2] := by decide +kernel

/-- **Two blobs at the same time**: so it is within one process, if its clock has not moved on between two blobs
for one folder; here the records 1 and 2 fill a blob, and 3 is left for the next. -/
theorem C91_same_time_fails :
    readTwo ["1a-1".toList, "1a-1".toList] [] [.append morning 1 [] [[]], .append morning 2 [] [[]],
      .append morning 3 [] [[]], .finalize] [] = some [.row 3] := by decide +kernel

end Mabel.StreamStorage
