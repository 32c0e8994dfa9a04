import Mathlib.Logic.Equiv.List
import Verif.Lemmas.FollowStream
import Verif.Props.ManyStorage

/-!
# Following, in sittings, what a process streams: C92
-/

namespace Mabel.StreamStorage
open Mabel.Py Mabel.Paths Mabel.Naming Mabel.Spec Mabel.Listing Mabel.EndToEnd Mabel.Dates Mabel.History
open Mabel.Blobs (Lib Faithful Torn delivered Item readBlob Names formatOf BlobName)
open Mabel.WriterInit (Folders Nested)
open Mabel.Stream (Conf Machine Reach Pool run)
open Mabel.Stream.Spec (blobsAt routed)
open Mabel.Cursor (Doc handOut)
open Mabel.Text (sanitize)
open Mabel.Disk hiding Bytes
variable {ρ β : Type}

/-- The moments of a process at which a caller has sittings, and a last one. -/
structure Moments (p : Process ρ β) (sits : List (Machine ρ × Sitting)) (last : Machine ρ) : Prop where
  order : (p.start :: sits.map (·.1) ++ [last]).Pairwise (Reach p.conf)

/-- There is room for the process on the disk. -/
structure RoomFor (ls : List (List Piece)) (S : DateTime → Prop) (d : Disk) (p : Process ρ β) (last : Machine ρ) : Prop where
  fresh : ∀ t, S t → Fresh (folderOf ls t) d
  nodup : d.names.Nodup
  enough : (handed last.pool.store).length ≤ p.ids.length
  hex : ∀ x ∈ p.ids, HexId x ∧ x ≠ []
  order : p.ids.Pairwise Before

/-- What is followed has at the last moment no more blobs than the next multiple of eight from any number it had at a
sitting before. -/
def NotBeyond (sits : List (Machine ρ × Sitting)) (last : Machine ρ) (target : Str) : Prop :=
  ∀ s ∈ sits, blobsAt s.1.pool.store target = [] ∨
    (blobsAt last.pool.store target).length ≤ 8 * (((blobsAt s.1.pool.store target).length + 7) / 8)

/-- Of the blobs listed at the last moment no two have names with the same hash. -/
def ToldApart (hash : Str → Nat) (a : Reader.Config) (p : Process ρ β) (d : Disk) (last : Machine ρ) : Prop :=
  ∀ d' now rnd back l, p.disk d last = .ok d' → Reader.openReader a now rnd (diskBlobsAt d'.names) = .ok (back, l) →
    ∀ x ∈ l, ∀ y ∈ l, hash x = hash y → x = y

/-- What a caller is given: the disks at the moments, what a reader that starts at the beginning delivers at each, what
the sittings give, and what the last one, read to its end, gives. -/
structure Followed (hash : Str → Nat) (lib : Lib ρ) (a : Reader.Config) (p : Process ρ β) (d : Disk)
    (sits : List (Machine ρ × Sitting)) (last : Machine ρ) (now : DateTime) (rnd : Str)
    (disk : Machine ρ → Disk) (whole : Machine ρ → List (Item ρ)) (got : List (List (Item ρ))) (rest : List (Item ρ)) : Prop where
  written : ∀ m ∈ sits.map (·.1) ++ [last], p.disk d m = .ok (disk m) ∧
    ∀ now rnd, sitOut hash lib a now rnd (disk m) none = .ok (whole m)
  taken : ∃ doc, sitAll hash lib a (sits.map fun s => (disk s.1, s.2)) none = .ok (got, doc) ∧
    sitOut hash lib a now rnd (disk last) doc = .ok rest
  steps : got = handOut 0 (sits.map fun s => (whole s.1, s.2.take))
  all : got.flatten ++ rest = whole last

section
variable {w : Job} {ls : List (List Piece)} {n : Nat} {flt : Option PartitionFilter} {subs : List (List Str)}
  {S : DateTime → Prop}

/-- The whole way, for one folder of one day. -/
theorem follow_core {sb : List Str} (hw : Daily w ls) (hfmt : w.format ≠ "text".toList) (hy : Layout w ls n flt subs [sb])
    (p : Process ρ β) (hsf : p.setup.format = w.format) (hc : p.conf.blob.format = formatOf w.format)
    (hS : ∀ t, S t → Day t) {t : DateTime} (ht : S t)
    (hcalls : ∀ t, ∀ a ∈ p.calls t, ∀ r ts, op p.setup p.valid p.str a = .append r ts → ∀ target ∈ ts, Goes ls subs S target)
    (sits : List (Machine ρ × Sitting)) (last : Machine ρ) (hm : Moments p sits last) (d : Disk) (hroom : RoomFor ls S d p last)
    (hnot : NotBeyond sits last (place ls t sb)) (lib : Lib ρ) (records : List ρ)
    (hrec : ∀ t now r names combos, Call.append now r names combos ∈ p.calls t → r ∈ records)
    (hread : Readable p.conf.blob.codec lib records) (prefixes : List Str)
    (hallow : Reader.allowed prefixes w.dataset = true) (hash : Str → Nat)
    (hhash : ToldApart hash (rangeReader w t t prefixes flt) p d last) (now : DateTime) (rnd : Str) :
    ∃ (hist : List (Nat × Call ρ β)) (left : Nat → List (Call ρ β)) (disk : Machine ρ → Disk)
      (whole : Machine ρ → List (Item ρ)) (got : List (List (Item ρ))) (rest : List (Item ρ)) (rows : List ρ),
      Served p.calls hist left ∧ (∀ t, last.todo t = (left t).map (op p.setup p.valid p.str)) ∧
      Followed hash lib (rangeReader w t t prefixes flt) p d sits last now rnd disk whole got rest ∧
      whole last = rows.map .row ∧ rows <+: routed (p.asks hist) (place ls t sb) ∧
      (last.owner = none → last.pool.writers = [] → rows = routed (p.asks hist) (place ls t sb)) := by
  have hsb : sb ∈ subs := hy.among sb (by simp)
  -- the stores of the moments
  have hord := hm.order
  rw [List.cons_append, List.pairwise_cons] at hord
  have hlast : ∀ m ∈ sits.map (·.1) ++ [last], Reach p.conf m last := by
    intro m hmm
    rcases List.mem_append.1 hmm with h | h
    · exact (List.pairwise_append.1 hord.2).2.2 m h last (by simp)
    · rw [List.mem_singleton.1 h]; exact .refl _
  have hpre : ∀ m ∈ sits.map (·.1) ++ [last], m.pool.store <+: last.pool.store := fun m h => reach_grows (hlast m h)
  have hstart : Reach p.conf p.start last := hord.1 last (by simp)
  -- what the last one holds
  have hfacts : ∃ (hist : List (Nat × Call ρ β)) (left : Nat → List (Call ρ β)) (R : Str → List ρ), Served p.calls hist left ∧
      (∀ t, last.todo t = (left t).map (op p.setup p.valid p.str)) ∧
      (∀ x ∈ handed last.pool.store, Goes ls subs S x.1) ∧
      (∀ T, Writer.Spec.Holds p.conf.blob.codec p.conf.blob.format (blobsAt last.pool.store T) (R T)) ∧
      (∀ T, R T <+: routed (p.asks hist) T) ∧
      (last.owner = none → last.pool.writers = [] → ∀ T, R T = routed (p.asks hist) T) ∧
      (∀ T, routed (p.asks hist) T ⊆ records) := by
    by_cases hq : last.owner = none ∧ last.pool.writers = []
    · obtain ⟨hist1, hist2, left1, left2, R, s1, s2, t1, t2, -, g1, g2, g3, g4, g5⟩ := process_facts p hcalls last last hstart
        hq.1 (.refl _) records hrec
      have h2 : hist2 = [] := s2.none (fun t => by
        have := congrArg List.length ((t1 t).symm.trans (t2 t))
        simpa using this)
      subst h2
      exact ⟨hist1, left1, fun T => routed (p.asks hist1) T, s1, t1, g1, g4 hq.2, fun T => List.prefix_rfl, fun _ _ T => rfl,
        g5 hist1 (List.subset_append_left _ _)⟩
    · obtain ⟨hist1, hist2, left1, left2, R, s1, s2, t1, t2, -, g1, g2, g3, g4, g5⟩ := process_facts p hcalls p.start last
        (.refl _) rfl hstart records hrec
      exact ⟨hist1 ++ hist2, left2, R, s1.append s2, t2, g1, g2, g3, fun h1 h2 => absurd ⟨h1, h2⟩ hq, g5 _ (fun _ h => h)⟩
  obtain ⟨hist, left, R, hserved, htodo, hgo, hR, hRp, hRe, hrecs⟩ := hfacts
  -- what is found at each moment
  have hfind : ∀ m, ∃ d', m ∈ sits.map (·.1) ++ [last] → p.disk d m = .ok d' ∧
      (∀ now rnd, Reader.openReader (rangeReader w t t prefixes flt) now rnd (diskBlobsAt d'.names)
        = if (sentTo ls t sb p.ids m.pool.store).map (nameFor w.format) = [] then .error .dataNotFound
          else .ok (0, (sentTo ls t sb p.ids m.pool.store).map (nameFor w.format))) ∧
      ((sentTo ls t sb p.ids m.pool.store).map (nameFor w.format)).Pairwise (fun x y => x < y) ∧
      Names ((sentTo ls t sb p.ids m.pool.store).map (nameFor w.format)) ∧
      ∀ x ∈ sentTo ls t sb p.ids m.pool.store, Disk.read d' (nameFor w.format x) = .ok x.2.2 ∧
        BlobName w.format (nameFor w.format x) := by
    intro m
    by_cases hmm : m ∈ sits.map (·.1) ++ [last]
    · obtain ⟨ops, d', h1, h2, h3⟩ := moment hw hy p.setup hsf hS ht d hroom.fresh hroom.nodup m.pool.store
        (fun x hx => hgo x ((handed_prefix (hpre m hmm)).subset hx)) p.ids hroom.hex hroom.order prefixes hallow
      refine ⟨d', fun _ => ⟨?_, h3⟩⟩
      unfold Process.disk Process.steps
      rw [h1]
      exact h2
    · exact ⟨d, fun h => absurd h hmm⟩
  choose disk hdisk using hfind
  let names : Machine ρ → List Str := fun m => (sentTo ls t sb p.ids m.pool.store).map (nameFor w.format)
  let content : Str → List (Item ρ) := fun b => readBlob lib {} b (Disk.read (disk last) b)
  have hl : last ∈ sits.map (·.1) ++ [last] := by simp
  have hfinds : ∀ m ∈ sits.map (·.1) ++ [last], Finds lib (rangeReader w t t prefixes flt) content (disk m) (names m) := by
    intro m hmm
    obtain ⟨-, h1, -, -, h2⟩ := hdisk m hmm
    obtain ⟨-, -, -, -, h3⟩ := hdisk last hl
    refine ⟨h1, ?_⟩
    intro b hb
    obtain ⟨x, hx, rfl⟩ := List.mem_map.1 hb
    show _ = readBlob lib {} _ (Disk.read (disk last) _)
    rw [(h2 x hx).1, (h3 x ((sentTo_grows (hpre m hmm) t sb p.ids).subset hx)).1]
  have hnames : ∀ m ∈ sits.map (·.1) ++ [last], Names (names m) := fun m hmm => (hdisk m hmm).2.2.2.1
  have hsorted : ∀ m ∈ sits.map (·.1) ++ [last], sorted strLe (names m) = names m := fun m hmm =>
    sorted_of_lt (hdisk m hmm).2.2.1
  have hcount : ∀ m ∈ sits.map (·.1) ++ [last], (names m).length = (blobsAt m.pool.store (place ls t sb)).length := by
    intro m hmm
    have hh := handed_prefix (hpre m hmm)
    rw [← sentTo_bytes hy hsb hS (hS t ht) m.pool.store (fun x hx => hgo x (hh.subset hx)) p.ids
      (hh.length_le.trans hroom.enough)]
    simp [names]
  obtain ⟨got, doc, rest, g1, g2, g3, g4⟩ := sit_following hash (sits.map fun s => (disk s.1, names s.1, s.2)) (disk last)
    (names last)
    (by
      intro s' hs'
      obtain ⟨s, hs, rfl⟩ := List.mem_map.1 hs'
      exact hfinds s.1 (List.mem_append_left _ (List.mem_map_of_mem hs)))
    (hfinds last hl)
    (by
      have e : (sits.map fun s => (disk s.1, names s.1, s.2)).map (·.2.1) ++ [names last]
          = (sits.map (·.1) ++ [last]).map names := by
        rw [List.map_append, List.map_map, List.map_map]; rfl
      rw [e, List.pairwise_map]
      refine List.Pairwise.imp_of_mem ?_ hord.2
      intro x y hx hy hxy
      rw [hsorted x hx, hsorted y hy]
      exact (sentTo_grows (reach_grows hxy) t sb p.ids).map _)
    (by
      intro s' hs'
      obtain ⟨s, hs, rfl⟩ := List.mem_map.1 hs'
      have hsm : s.1 ∈ sits.map (·.1) ++ [last] := List.mem_append_left _ (List.mem_map_of_mem hs)
      show names s.1 = [] ∨ _ ≤ 8 * (((names s.1).length + 7) / 8)
      rw [← List.length_eq_zero_iff, hcount s.1 hsm, hcount last hl, List.length_eq_zero_iff]
      exact hnot s hs)
    (hnames last hl).nodup (hnames last hl).nonempty
    (by
      intro x hx
      refine hhash (disk last) now rnd 0 (names last) (hdisk last hl).1 ?_ x hx
      rw [(hfinds last hl).opened, if_neg (List.ne_nil_of_mem hx)])
    now rnd
  -- the records
  have hrows : (names last).flatMap content = (R (place ls t sb)).map .row := by
    obtain ⟨gs, k1, k2, -⟩ := hR (place ls t sb)
    rw [← k2]
    refine read_full hfmt hread.faithful hread.truthy (Disk.read (disk last)) (sentTo ls t sb p.ids last.pool.store) gs ?_ ?_ ?_ ?_
    · rw [sentTo_bytes hy hsb hS (hS t ht) last.pool.store hgo p.ids hroom.enough, k1, hc]
    · rw [k2]; exact fun x hx => hrecs _ ((hRp _).subset hx)
    · exact fun x hx => ((hdisk last hl).2.2.2.2 x hx).2
    · exact fun x hx => ((hdisk last hl).2.2.2.2 x hx).1
  refine ⟨hist, left, disk, fun m => Cursor.inOrder content (names m), got, rest, R (place ls t sb), hserved, htodo,
    ⟨?_, ⟨doc, ?_, g2⟩, ?_, g4⟩, ?_, hRp _, fun h1 h2 => hRe h1 h2 _⟩
  · intro m hmm
    exact ⟨(hdisk m hmm).1, fun now rnd => sitOut_finds (hfinds m hmm) (hnames m hmm).nodup (hnames m hmm).nonempty hash now rnd⟩
  · rw [List.map_map] at g1
    exact g1
  · rw [g3, List.map_map]; rfl
  · show (sorted strLe (names last)).flatMap content = _
    rw [hsorted last hl]
    exact hrows

end

/-- **C92 (following a day).**  Threads of a process call its stream writer, which has a folder for each day.  A caller
follows one day: again and again, at any moment and with any calls under way, it makes a reader of that day with the
cursor it saved the time before (if it is told that there is no data it comes back later), takes some records and
saves the cursor.  In all, each time it is given the next records of those that a reader without a cursor would
deliver then, and at last, reading to the end, the rest; if no call is under way then and no writer is open, this
is, once each and in order, every valid record appended on that day.

Partial: at each moment the blobs handed over have been written (`C92_part_written_fails`), the day does not get a
blob too many for a saved cursor (`NotBeyond`, `C92_ninth_blob_fails`) and hashes of names differ. -/
theorem C92_follow_day_partial {w : Job} {ls : List (List Piece)} (hw : Daily w ls) (hn : Nested ls)
    (hfmt : w.format ≠ "text".toList) {S : DateTime → Prop} (p : Process ρ β) (date : Option DateTime)
    (hset : p.setup = dayWriter w date) (field : ρ → Str → Targets.Field β) (lib : Lib ρ) (records : List ρ)
    (hp : Writes w field S lib records p) {t : DateTime} (ht : S t) (sits : List (Machine ρ × Sitting)) (last : Machine ρ)
    (hm : Moments p sits last) (d : Disk) (hroom : RoomFor ls S d p last)
    (hnot : NotBeyond sits last (place ls t [])) (prefixes : List Str)
    (hallow : Reader.allowed prefixes w.dataset = true) (hash : Str → Nat)
    (hhash : ToldApart hash (rangeReader w t t prefixes) p d last) (now : DateTime) (rnd : Str) :
    ∃ (hist : List (Nat × Call ρ β)) (left : Nat → List (Call ρ β)) (disk : Machine ρ → Disk)
      (whole : Machine ρ → List (Item ρ)) (got : List (List (Item ρ))) (rest : List (Item ρ)) (rows : List ρ),
      Served p.calls hist left ∧ (∀ t, last.todo t = (left t).map (op p.setup p.valid p.str)) ∧
      Followed hash lib (rangeReader w t t prefixes) p d sits last now rnd disk whole got rest ∧
      whole last = rows.map .row ∧ rows <+: p.appended (fun u => midnight u = t) hist ∧
      (last.owner = none → last.pool.writers = [] → rows = p.appended (fun u => midnight u = t) hist) := by
  have hS := hp.asked.day
  have hs : p.setup.template = join ['/'] ((ls ++ []).map template) := by rw [hset]; exact day_template hw date (hS t ht)
  have hy := layout_plain hw hn
  obtain ⟨hist, left, disk, whole, got, rest, rows, s1, s2, s3, s4, s5, s6⟩ := follow_core hw hfmt hy p
    (by rw [hset]; rfl) hp.format hS ht (fun t a ha r ts h => timed_goes hw hy timed_plain hs hS (hp.asked.ok t a ha) h)
    sits last hm d hroom hnot lib records hp.asked.records hp.readable prefixes hallow hash hhash now rnd
  have e : routed (p.asks hist) (place ls t []) = p.appended (fun u => midnight u = t) hist := by
    refine (routed_place hw hy timed_plain hs hS (hS t ht) (by simp) hist (fun x hx => hp.asked.ok _ _ (s1.mem hx))).trans ?_
    exact plain_congr _ _ _ _
  rw [e] at s5 s6
  exact ⟨hist, left, disk, whole, got, rest, rows, s1, s2, s3, s4, s5, s6⟩

/-- **C92 (following a value).**  The same for a writer that partitions by a field, and a caller who follows, with a
filter, the records of one day with one value. -/
theorem C92_follow_value_partial {w : Job} {ls : List (List Piece)} (hw : Daily w ls)
    (hby : ∀ t, Day t → contains "by_".toList (join ['/'] (folderOf ls t)) = false)
    (hfmt : w.format ≠ "text".toList) {S : DateTime → Prop} (p : Process ρ β) (date : Option DateTime) (F : Str)
    (hset : p.setup = fieldWriter w F date) (field : ρ → Str → Targets.Field β) (lib : Lib ρ) (records : List ρ)
    (hp : Writes w field S lib records p) (flt : PartitionFilter) (hflt : Asks F flt)
    (hone : OneValue p.str field F flt.value records)
    {t : DateTime} (ht : S t) (sits : List (Machine ρ × Sitting)) (last : Machine ρ)
    (hm : Moments p sits last) (d : Disk) (hroom : RoomFor ls S d p last)
    (hnot : NotBeyond sits last (place ls t (fieldFolders F (sanitize flt.value)))) (prefixes : List Str)
    (hallow : Reader.allowed prefixes w.dataset = true) (hash : Str → Nat)
    (hhash : ToldApart hash (rangeReader w t t prefixes (some flt)) p d last) (now : DateTime) (rnd : Str) :
    ∃ (hist : List (Nat × Call ρ β)) (left : Nat → List (Call ρ β)) (disk : Machine ρ → Disk)
      (whole : Machine ρ → List (Item ρ)) (got : List (List (Item ρ))) (rest : List (Item ρ)) (rows : List ρ),
      Served p.calls hist left ∧ (∀ t, last.todo t = (left t).map (op p.setup p.valid p.str)) ∧
      Followed hash lib (rangeReader w t t prefixes (some flt)) p d sits last now rnd disk whole got rest ∧
      whole last = rows.map .row ∧
      rows <+: appended date (fun r => p.valid r && has p.str field F flt.value r) (fun u => midnight u = t) hist ∧
      (last.owner = none → last.pool.writers = [] →
        rows = appended date (fun r => p.valid r && has p.str field F flt.value r) (fun u => midnight u = t) hist) := by
  have hS := hp.asked.day
  have hF := hflt.name
  have hs : p.setup.template = join ['/'] ((ls ++ fieldPieces F).map template) ++ '{' :: (F ++ ['}']) := by
    rw [hset]; exact field_template hw F date (hS t ht)
  have hy := layout_field hw hby hF
    (field_values_safe (str := p.str) (field := field) (F := F) (x := flt.value) (records := records))
    flt hflt.field hflt.op (by simp [fieldValues]) hflt.value
  obtain ⟨hist, left, disk, whole, got, rest, rows, s1, s2, s3, s4, s5, s6⟩ := follow_core hw hfmt hy p
    (by rw [hset]; rfl) hp.format hS ht
    (fun t a ha r ts h => field_goes hw hF hs hS (hp.asked.ok t a ha)
      (fun now r names combos e => hp.asked.records t now r names combos (e ▸ ha)) h)
    sits last hm d hroom hnot lib records hp.asked.records hp.readable prefixes hallow hash hhash now rnd
  have e := field_routed hw hF hy hs hS hone (hS t ht) hist (fun x hx => hp.asked.ok _ _ (s1.mem hx))
      (fun t now r names combos hx => hp.asked.records t now r names combos (s1.mem hx))
  have ed : p.setup.date = date := by rw [hset]; rfl
  rw [ed] at e
  have e : routed (p.asks hist) (place ls t (fieldFolders F (sanitize flt.value)))
      = appended date (fun r => p.valid r && has p.str field F flt.value r) (fun u => midnight u = t) hist := e
  rw [e] at s5 s6
  exact ⟨hist, left, disk, whole, got, rest, rows, s1, s2, s3, s4, s5, s6⟩

/-! ## A concrete case -/

/-- A hash that tells all names apart. -/
def properHash (b : Str) : Nat := Encodable.encode (b.map Char.toNat)

theorem properHash_inj : Function.Injective properHash := by
  intro a b h
  refine List.map_injective_iff.2 ?_ (Encodable.encode_injective h)
  intro x y hxy
  exact Char.ext (UInt32.toNat_inj.1 hxy)

/-- Non-vacuity: the caller has a sitting before the first call, one when a thread is in the middle of a call and the day
has one blob, and reads to the end when the process has been finalized and the day has two. -/
example : ∃ m last : Machine (Fin 10),
    Moments (demoProcess demoBlobIds) [((demoProcess demoBlobIds).start, ⟨feb28, [], 5⟩), (m, ⟨feb28, "x".toList, 1⟩)] last ∧
    m.owner ≠ none ∧ last.owner = none ∧ last.pool.writers = [] ∧
    (blobsAt m.pool.store (place demoFolders feb28 [])).length = 1 ∧
    (blobsAt last.pool.store (place demoFolders feb28 [])).length = 2 ∧
    RoomFor demoFolders demoS demoStart (demoProcess demoBlobIds) last ∧
    NotBeyond [((demoProcess demoBlobIds).start, ⟨feb28, [], 5⟩), (m, ⟨feb28, "x".toList, 1⟩)] last (place demoFolders feb28 []) := by
  obtain ⟨m, h1, h2⟩ := demo_after (s := dayWriter zJob none)
    (turns := List.replicate 4 0 ++ List.replicate 8 1 ++ List.replicate 6 2 ++ List.replicate 6 0)
    (P := fun m => (m.owner.isSome && (blobsAt m.pool.store (place demoFolders feb28 [])).length == 1) &&
      (Stream.schedule demoConf m (List.replicate 9 0)).any fun m => m.owner.isNone && m.pool.writers.isEmpty &&
        (handed m.pool.store).length == 4 && (blobsAt m.pool.store (place demoFolders feb28 [])).length == 2) (by decide +kernel)
  rw [Bool.and_eq_true] at h2
  obtain ⟨h2, h3⟩ := h2
  cases he : Stream.schedule demoConf m (List.replicate 9 0) with
  | none => rw [he] at h3; cases h3
  | some last =>
    rw [he] at h3
    have h4 := Stream.schedule_reach demoConf _ (.refl m) he
    simp only [Option.any_some, Bool.and_eq_true, Option.isNone_iff_eq_none, List.isEmpty_iff, beq_iff_eq, Option.isSome_iff_ne_none]
      at h2 h3
    have h5 : Reach demoConf (demoProcess demoBlobIds).start last := Stream.schedule_reach demoConf _ h1 he
    refine ⟨m, last, ⟨?_⟩, h2.1, h3.1.1.1, h3.1.1.2, h2.2, h3.2, ?_, ?_⟩
    · show List.Pairwise (Reach demoConf) [(demoProcess demoBlobIds).start, (demoProcess demoBlobIds).start, m, last]
      refine List.pairwise_cons.2 ⟨?_, List.pairwise_cons.2 ⟨?_, List.pairwise_cons.2 ⟨?_, by simp⟩⟩⟩
      · intro x hx
        simp only [List.mem_cons, List.not_mem_nil, or_false] at hx
        rcases hx with rfl | rfl | rfl
        · exact .refl _
        · exact h1
        · exact h5
      · intro x hx
        simp only [List.mem_cons, List.not_mem_nil, or_false] at hx
        rcases hx with rfl | rfl
        · exact h1
        · exact h5
      · intro x hx
        simp only [List.mem_cons, List.not_mem_nil, or_false] at hx
        subst hx
        exact h4
    · have hr := demo_room 4 (by decide)
      exact ⟨hr.fresh, hr.nodup, by rw [h3.1.2]; decide, hr.hex, hr.order⟩
    · intro x hx
      simp only [List.mem_cons, List.not_mem_nil, or_false] at hx
      rcases hx with rfl | rfl
      · exact Or.inl rfl
      · right
        rw [h2.2, h3.2]
        decide

/-- The other hypotheses hold as well. -/
example (sits : List (Machine (Fin 10) × Sitting)) (last : Machine (Fin 10)) (hm : Moments (demoProcess demoBlobIds) sits last)
    (hroom : RoomFor demoFolders demoS demoStart (demoProcess demoBlobIds) last)
    (hnot : NotBeyond sits last (place demoFolders feb28 [])) (now : DateTime) (rnd : Str) :=
  C92_follow_day_partial daily WriterInit.demo_nested (by decide) (demoProcess demoBlobIds) none rfl (fun _ _ => .one ())
    tornLib [1, 2, 3, 4, 7] (demo_writes _) (t := feb28) (by decide) sits last hm demoStart hroom hnot ["tests/".toList]
    (by decide) properHash (fun _ _ _ _ _ _ _ _ _ _ _ h => properHash_inj h) now rnd

/-! ## Where it fails -/

/-- What a caller gets who has a sitting after the first `k` of the steps that store one blob, and then reads to the end
when all have been taken. -/
def twoSittings (k : Nat) : Option (List (Item (Fin 10)) × List (Item (Fin 10))) :=
  let store := (run demoConf { clock := [0, 1, 2, 3, 4] } ([.append morning 1 [] [[]], .append morning 2 [] [[]], .finalize].map
    (op (dayWriter zJob none) demoValid fun (_ : Unit) => []))).store
  match onDisk (dayWriter zJob none) ["1a-1".toList] demoStart store k,
    onDisk (dayWriter zJob none) ["1a-1".toList] demoStart store 100 with
  | .ok d1, .ok d2 =>
    match sit (fun b => b.length) tornLib (rangeReader zJob feb28 feb28 ["tests/".toList]) d1 ⟨feb28, [], 9⟩ none with
    | .error _ => none
    | .ok (got, doc) =>
      match sitOut (fun b => b.length) tornLib (rangeReader zJob feb28 feb28 ["tests/".toList]) feb28 [] d2 doc with
      | .error _ => none
      | .ok rest => some (got, rest)
  | _, _ => none

/-- **A blob that is read before it has been written in full** is taken to have been read: if the file has just been made
(six steps) neither of the two records put into it then is ever delivered, and if it is in part written (nine
steps) the second is not.  If all steps have been taken before the sitting, or the file has not been made, nothing is lost. -/
theorem C92_part_written_fails :
    twoSittings 6 = some ([], []) ∧ twoSittings 9 = some ([.row 1], []) ∧
    twoSittings 5 = some ([], [.row 1, .row 2]) ∧ twoSittings 11 = some ([.row 1, .row 2], []) := by
  decide +kernel

end Mabel.StreamStorage
