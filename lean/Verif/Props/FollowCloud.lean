import Verif.Lemmas.PermBlobs
import Verif.Props.CloudMany
import Verif.Props.FollowStream
import Verif.Spec.FollowCloud

/-!
# Following, in sittings, what a process streams to object storage: C118
-/

namespace Mabel.CloudStream
open Mabel.Py Mabel.Paths Mabel.Naming Mabel.Spec Mabel.Listing Mabel.ObjectStore Mabel.EndToEnd
open Mabel.Cloud (gcs minio gcsListed minioListed readerHours)
open Mabel.StreamStorage hiding put onDisk Moments NotBeyond ToldApart handed_prefix zip_fst_sublist
open Mabel.History (Day Daily folderOf DaysOf rangeReader Fresh)
open Mabel.Blobs (Lib Faithful delivered Item readBlob Names formatOf BlobName)
open Mabel.WriterInit (Nested)
open Mabel.Stream (Conf Machine Reach Pool run)
open Mabel.Stream.Spec (blobsAt routed)
open Mabel.Cursor (Doc handOut session)
open Mabel.Text (sanitize)
open Mabel.Disk (Disk exec)
variable {ρ β : Type}

/-- The looks of a caller's sittings, and a last one: the process goes on and more is stored. -/
structure Looks (p : Process ρ β) (sits : List (Look ρ × Sitting)) (last : Look ρ) : Prop where
  start : ∀ x ∈ sits.map (·.1) ++ [last], Reach p.conf p.start x.machine
  order : (sits.map (·.1) ++ [last]).Pairwise fun x y => Reach p.conf x.machine y.machine ∧ x.stored ≤ y.stored
  stored : ∀ x ∈ sits.map (·.1) ++ [last], x.stored ≤ (handed x.machine.pool.store).length

/-- What is followed has at the last look no more blobs than the next multiple of eight from any number it had at a
sitting before. -/
def NotBeyond (sits : List (Look ρ × Sitting)) (last : Look ρ) (target : Str) : Prop :=
  ∀ s ∈ sits, s.1.blobs target = [] ∨ (last.blobs target).length ≤ 8 * (((s.1.blobs target).length + 7) / 8)

/-- Of the blobs listed at the last look no two have names with the same hash. -/
def ToldApart (v : Cloud.Service) (lists : Lists) (hash : Str → Nat) (a : Reader.Config) (p : Process ρ β) (obj : List (Obj Disk.Bytes)) (last : Look ρ) : Prop :=
  ∀ s' now rnd back l, last.objects v p obj = .ok s' → Reader.openReader a now rnd (lists a now rnd s') = .ok (back, l) →
    ∀ x ∈ l, ∀ y ∈ l, hash x = hash y → x = y

/-- What a caller is given: the storage at the looks, what a reader that starts at the beginning delivers at each, what
the sittings give, and what the last one, read to its end, gives. -/
structure Followed (v : Cloud.Service) (lists : Lists) (hash : Str → Nat) (lib : Lib ρ) (a : Reader.Config) (p : Process ρ β) (obj : List (Obj Disk.Bytes))
    (sits : List (Look ρ × Sitting)) (last : Look ρ) (now : DateTime) (rnd : Str)
    (objs : Look ρ → List (Obj Disk.Bytes)) (whole : Look ρ → List (Item ρ)) (got : List (List (Item ρ)))
    (rest : List (Item ρ)) : Prop where
  written : ∀ m ∈ sits.map (·.1) ++ [last], m.objects v p obj = .ok (objs m) ∧
    ∀ now rnd, sitInOut lists hash lib a now rnd (objs m) none = .ok (whole m)
  taken : ∃ doc, sitInAll lists hash lib a (sits.map fun s => (objs s.1, s.2)) none = .ok (got, doc) ∧
    sitInOut lists hash lib a now rnd (objs last) doc = .ok rest
  steps : got = handOut 0 (sits.map fun s => (whole s.1, s.2.take))
  all : got.flatten ++ rest = whole last

/-! ## From a disk to the storage -/

/-- Nothing is on the disk. -/
def emptyDisk : Disk := ⟨[], [], fun _ => []⟩

theorem empty_fresh (f : List Str) : Fresh f emptyDisk := ⟨nofun, List.nodup_nil, nofun, nofun⟩

/-- A reader on the storage finds what one on the disk does. -/
structure Mirror (lists : Lists) (a : Reader.Config) (s : List (Obj Disk.Bytes)) (d : Disk) : Prop where
  opened : ∀ now rnd, Reader.openReader a now rnd (lists a now rnd s) = Reader.openReader a now rnd (diskBlobsAt d.names)
  read : ∀ now rnd back l, Reader.openReader a now rnd (diskBlobsAt d.names) = .ok (back, l) →
    ∀ b ∈ l, blobBytes s b = Disk.read d b

theorem Mirror.sit {lists : Lists} {a : Reader.Config} {s : List (Obj Disk.Bytes)} {d : Disk} (h : Mirror lists a s d) (hash : Str → Nat) (lib : Lib ρ)
    (x : Sitting) (doc : Option Doc) : sitIn lists hash lib a s x doc = StreamStorage.sit hash lib a d x doc := by
  unfold sitIn StreamStorage.sit
  rw [h.opened]
  cases e : Reader.openReader a x.now x.rnd (diskBlobsAt d.names) with
  | error e' => cases e' <;> rfl
  | ok r =>
    obtain ⟨back, l⟩ := r
    simp only
    exact session_congr (fun b hb => by rw [h.read _ _ _ _ e b hb]) hash doc x.take

theorem Mirror.sitOut {lists : Lists} {a : Reader.Config} {s : List (Obj Disk.Bytes)} {d : Disk} (h : Mirror lists a s d) (hash : Str → Nat)
    (lib : Lib ρ) (now : DateTime) (rnd : Str) (doc : Option Doc) :
    sitInOut lists hash lib a now rnd s doc = StreamStorage.sitOut hash lib a now rnd d doc := by
  unfold sitInOut StreamStorage.sitOut
  rw [h.opened]
  cases e : Reader.openReader a now rnd (diskBlobsAt d.names) with
  | error e' => cases e' <;> rfl
  | ok r =>
    obtain ⟨back, l⟩ := r
    have e' : Blobs.readSerial hash lib {} (blobBytes s) l doc = Blobs.readSerial hash lib {} (Disk.read d) l doc := by
      unfold Blobs.readSerial
      exact readAll_congr (fun b hb => by rw [h.read _ _ _ _ e b hb]) hash doc
    simp only [e']
    cases (Blobs.readSerial hash lib {} (Disk.read d) l doc).finish <;> rfl

theorem sitInAll_mirror {lists : Lists} {a : Reader.Config} (hash : Str → Nat) (lib : Lib ρ) (l : List (List (Obj Disk.Bytes) × Disk × Sitting))
    (h : ∀ x ∈ l, Mirror lists a x.1 x.2.1) (doc : Option Doc) :
    sitInAll lists hash lib a (l.map fun x => (x.1, x.2.2)) doc = sitAll hash lib a (l.map fun x => (x.2.1, x.2.2)) doc := by
  induction l generalizing doc with
  | nil => rfl
  | cons x l ih =>
    rw [List.map_cons, List.map_cons, sitInAll, sitAll, (h x (by simp)).sit]
    cases StreamStorage.sit hash lib a x.2.1 x.2.2 doc with
    | error e => rfl
    | ok r =>
      simp only
      rw [ih (fun y hy => h y (by simp [hy]))]

/-- What has been handed over, as what is stored of it. -/
def cut (x : Look ρ) : List (Str × Writer.Stored) :=
  ((handed x.machine.pool.store).take x.stored).map fun b => (b.1, .data b.2)

theorem handed_data (l : List (Str × Disk.Bytes)) : handed (l.map fun b => (b.1, .data b.2)) = l := by
  unfold handed
  rw [List.filterMap_map]
  induction l with
  | nil => rfl
  | cons b l ih =>
    rw [List.filterMap_cons, ih]
    rfl

theorem handed_cut (x : Look ρ) : handed (cut x) = (handed x.machine.pool.store).take x.stored := handed_data _

section
variable {w : Job} {ls : List (List Piece)} {n : Nat} {flt : Option PartitionFilter} {subs : List (List Str)}
  {S : DateTime → Prop}

/-- A reader of one day lists once on MinIO: the range has one hour. -/
theorem one_hour {t : DateTime} (ht : Day t) (prefixes : List Str) (now : DateTime) :
    (readerHours (rangeReader w t t prefixes flt) now).length = 1 := by
  obtain ⟨hours, h1, h2, h3⟩ := Dates.dateRange_spec (now := now) ht.valid ht.valid (Nat.le_refl _)
  have hfloor : t.floorHour = t := by
    obtain ⟨y, mo, d, h, mi, sec⟩ := t
    have := ht.midnight_eq
    simp only [EndToEnd.midnight, DateTime.mk.injEq] at this
    simp only [DateTime.floorHour, DateTime.mk.injEq]
    exact ⟨trivial, trivial, trivial, trivial, this.2.2.2.2⟩
  rw [hfloor] at h2
  have hrd : Dates.readerDates now (rangeReader w t t prefixes flt).start (rangeReader w t t prefixes flt).stop = (t, t) := by
    show (if (EndToEnd.midnight t).le (EndToEnd.midnight t) then (EndToEnd.midnight t, EndToEnd.midnight t) else _) = _
    rw [ht.midnight_eq, if_pos (by simp [DateTime.le])]
  have e : readerHours (rangeReader w t t prefixes flt) now = hours := by
    unfold readerHours
    rw [hrd]
    simp only [h1]
    rfl
  rw [e]
  match hours, h2, h3 with
  | [], h2, _ =>
    have hz : t.minute = 0 ∧ t.second = 0 := by
      rw [← ht.midnight_eq]
      exact ⟨rfl, rfl⟩
    exact absurd ((h2 t).2 ⟨ht.valid, hz.1, hz.2, Nat.le_refl _, Nat.le_refl _⟩) (by simp)
  | [a], _, _ => rfl
  | a :: b :: l, h2, h3 =>
    have ha := (h2 a).1 (by simp)
    have hb := (h2 b).1 (by simp)
    have := (List.pairwise_cons.1 h3).1 b (by simp)
    omega

/-- The storage at a look, and a disk on which a reader finds the same. -/
theorem look_moment {sb : List Str} (hw : Daily w ls) (hy : Layout w ls n flt subs [sb]) (p : Process ρ β) {v : Cloud.Service} {lists : Lists}
    (hv : Service.Reads v lists) (hsf : p.setup.format = w.format) (hS : ∀ t, S t → Day t) {t : DateTime} (ht : S t) (obj : List (Obj Disk.Bytes))
    {k : Nat} (hplace : Place ls S obj p.ids k) (x : Look ρ)
    (hgo : ∀ y ∈ handed x.machine.pool.store, Goes ls subs S y.1)
    (prefixes : List Str) (hallow : Reader.allowed prefixes w.dataset = true) :
    ∃ s' d', x.objects v p obj = .ok s' ∧ Mirror lists (rangeReader w t t prefixes flt) s' d' ∧
      (∀ now rnd, Reader.openReader (rangeReader w t t prefixes flt) now rnd (diskBlobsAt d'.names)
        = if (sentTo ls t sb p.ids (cut x)).map (nameFor w.format) = [] then .error .dataNotFound
          else .ok (0, (sentTo ls t sb p.ids (cut x)).map (nameFor w.format))) ∧
      ((sentTo ls t sb p.ids (cut x)).map (nameFor w.format)).Pairwise (fun x y => x < y) ∧
      Names ((sentTo ls t sb p.ids (cut x)).map (nameFor w.format)) ∧
      ∀ y ∈ sentTo ls t sb p.ids (cut x), Disk.read d' (nameFor w.format y) = .ok y.2.2 ∧
        BlobName w.format (nameFor w.format y) := by
  have hgo' : ∀ y ∈ handed (cut x), Goes ls subs S y.1 := by
    intro y hy
    rw [handed_cut] at hy
    exact hgo y (List.mem_of_mem_take hy)
  obtain ⟨ops, d', h1, h2, h3, h4, h5, h6⟩ := moment hw hy p.setup hsf hS ht emptyDisk (fun t _ => empty_fresh _) List.nodup_nil
    (cut x) hgo' p.ids hplace.hex hplace.order prefixes hallow
  obtain ⟨k, s', b1, b2, b3, b4⟩ := bridge hy hS p.setup hsf (cut x) hgo' p.ids hplace.hex hplace.order obj hplace.tidy
    hplace.empty (handed (cut x)).length
  have ha : Alike ls S s' d' := by
    apply b4
    unfold StreamStorage.onDisk
    rw [h1]
    simp only
    rw [List.take_of_length_le (b2 (cut x) List.prefix_rfl (Nat.le_refl _) ops h1)]
    exact h2
  have hobj : x.objects v p obj = .ok s' := by
    have h := b3 v (by rcases hv with ⟨h, -⟩ | ⟨h, -⟩; exacts [Or.inl h, Or.inr h])
    unfold inObjects at h
    unfold Look.objects inObjects
    rw [← h]
    congr 1
    rw [handed_cut, ← zip_take_right, List.take_of_length_le (l := p.ids.zip _)]
    rw [List.length_zip, List.length_take]
    omega
  have hdays : DaysOf t t [t] := by
    refine ⟨fun u => ?_, by simp⟩
    rw [List.mem_singleton]
    constructor
    · rintro rfl; exact ⟨hS _ ht, Nat.le_refl _, Nat.le_refl _⟩
    · rintro ⟨hu, h1, h2⟩
      exact hu.eq_of_seconds (hS _ ht) (by omega)
  have hnd : d'.names.Nodup := Disk.exec_nodup h2 List.nodup_nil
  refine ⟨s', d', hobj, ⟨?_, ?_⟩, h3, h4, h5, h6⟩
  · intro now rnd
    refine Cloud.open_perm hw (hS t ht) (hS t ht) (Nat.le_refl _) hdays ?_ now rnd prefixes flt
    intro u hu
    have hlists : lists (rangeReader w t t prefixes flt) now rnd s' ⟨[], folderOf ls u⟩
        = diskBlobsAt (files s') ⟨[], folderOf ls u⟩ := by
      rcases hv with ⟨-, rfl⟩ | ⟨-, rfl⟩
      · exact (gcs_lists hw hplace.bucket hplace.dot hdays ha.tidy hu).1
      · refine (minio_lists hw hplace.bucket hplace.dot hdays now rnd ha.tidy (rangeReader w t t prefixes flt) hu).1.trans ?_
        rw [one_hour (hS t ht)]
        simp
    rw [hlists]
    have e : u = t := List.mem_singleton.1 hu
    subst e
    unfold diskBlobsAt
    apply List.Perm.map
    refine (List.perm_ext_iff_of_nodup ?_ ?_).2 (ha.same u ht)
    · have := C79_listing_once s' ha.tidy ⟨[], folderOf ls u⟩
      unfold diskBlobsAt at this
      exact List.Nodup.of_map _ this
    · exact hnd.filter _
  · intro now rnd back l hl b hb
    obtain ⟨-, h⟩ := Cloud.open_same hw (hS t ht) (hS t ht) (Nat.le_refl _) hdays
      (f := diskBlobsAt d'.names) (g := diskBlobsAt d'.names) (fun _ _ _ => Iff.rfl) now rnd prefixes flt
    obtain ⟨-, -, -, h⟩ := h back l hl
    obtain ⟨q, hq⟩ := h b hb
    exact alike_read ha q hq

theorem blobs_cut (x : Look ρ) (T : Str) : blobsAt (cut x) T = (x.blobs T).map (·.2) := by
  rw [blobsAt_handed, handed_cut]
  rfl

/-- The whole way, for one folder of one day. -/
theorem follow_core {sb : List Str} (hw : Daily w ls) (hfmt : w.format ≠ "text".toList) (hy : Layout w ls n flt subs [sb])
    {v : Cloud.Service} {lists : Lists} (hv : Service.Reads v lists) (p : Process ρ β) (hsf : p.setup.format = w.format) (hc : p.conf.blob.format = formatOf w.format)
    (hS : ∀ t, S t → Day t) {t : DateTime} (ht : S t)
    (hcalls : ∀ t, ∀ a ∈ p.calls t, ∀ r ts, op p.setup p.valid p.str a = .append r ts → ∀ target ∈ ts, Goes ls subs S target)
    (sits : List (Look ρ × Sitting)) (last : Look ρ) (hm : Looks p sits last) (obj : List (Obj Disk.Bytes))
    (hplace : Place ls S obj p.ids (handed last.machine.pool.store).length)
    (hnot : NotBeyond sits last (place ls t sb)) (lib : Lib ρ) (records : List ρ)
    (hrec : ∀ t now r names combos, Call.append now r names combos ∈ p.calls t → r ∈ records)
    (hread : Kept p.conf.blob.codec lib records) (prefixes : List Str)
    (hallow : Reader.allowed prefixes w.dataset = true) (hash : Str → Nat)
    (hhash : ToldApart v lists hash (rangeReader w t t prefixes flt) p obj last) (now : DateTime) (rnd : Str) :
    ∃ (hist : List (Nat × Call ρ β)) (left : Nat → List (Call ρ β)) (objs : Look ρ → List (Obj Disk.Bytes))
      (whole : Look ρ → List (Item ρ)) (got : List (List (Item ρ))) (rest : List (Item ρ)) (rows : List ρ),
      Served p.calls hist left ∧ (∀ t, last.machine.todo t = (left t).map (op p.setup p.valid p.str)) ∧
      Followed v lists hash lib (rangeReader w t t prefixes flt) p obj sits last now rnd objs whole got rest ∧
      whole last = rows.map .row ∧ rows <+: routed (p.asks hist) (place ls t sb) ∧
      (last.machine.owner = none → last.machine.pool.writers = [] → last.stored = (handed last.machine.pool.store).length →
        rows = routed (p.asks hist) (place ls t sb)) := by
  have hsb : sb ∈ subs := hy.among sb (by simp)
  have hl : last ∈ sits.map (·.1) ++ [last] := by simp
  have hstart : Reach p.conf p.start last.machine := hm.start last hl
  have hlast : ∀ m ∈ sits.map (·.1) ++ [last], Reach p.conf m.machine last.machine := by
    intro m hmm
    rcases List.mem_append.1 hmm with h | h
    · exact ((List.pairwise_append.1 hm.order).2.2 m h last (by simp)).1
    · rw [List.mem_singleton.1 h]; exact .refl _
  have hpre : ∀ m ∈ sits.map (·.1) ++ [last], handed m.machine.pool.store <+: handed last.machine.pool.store :=
    fun m h => handed_prefix (reach_grows (hlast m h))
  -- what has been stored at a look has been stored at a later one
  have hcut : ∀ x ∈ sits.map (·.1) ++ [last], ∀ y, Reach p.conf x.machine y.machine → x.stored ≤ y.stored → cut x <+: cut y := by
    intro x hx y hxy hle
    unfold cut
    apply List.IsPrefix.map
    obtain ⟨c, hc⟩ := handed_prefix (reach_grows hxy)
    rw [← hc]
    have hs := hm.stored x hx
    rw [← List.take_append_of_le_length (l₂ := c) hs]
    exact List.take_prefix_take_left hle
  -- what the last one holds
  have hfacts : ∃ (hist : List (Nat × Call ρ β)) (left : Nat → List (Call ρ β)) (R : Str → List ρ), Served p.calls hist left ∧
      (∀ t, last.machine.todo t = (left t).map (op p.setup p.valid p.str)) ∧
      (∀ x ∈ handed last.machine.pool.store, Goes ls subs S x.1) ∧
      (∀ T, Writer.Spec.Holds p.conf.blob.codec p.conf.blob.format (blobsAt last.machine.pool.store T) (R T)) ∧
      (∀ T, R T <+: routed (p.asks hist) T) ∧
      (last.machine.owner = none → last.machine.pool.writers = [] → ∀ T, R T = routed (p.asks hist) T) ∧
      (∀ T, routed (p.asks hist) T ⊆ records) := by
    by_cases hq : last.machine.owner = none ∧ last.machine.pool.writers = []
    · obtain ⟨hist1, hist2, left1, left2, R, s1, s2, t1, t2, -, g1, g2, g3, g4, g5⟩ := process_facts p hcalls last.machine last.machine
        hstart hq.1 (.refl _) records hrec
      have h2 : hist2 = [] := s2.none (fun t => by
        have := congrArg List.length ((t1 t).symm.trans (t2 t))
        simpa using this)
      subst h2
      exact ⟨hist1, left1, fun T => routed (p.asks hist1) T, s1, t1, g1, g4 hq.2, fun T => List.prefix_rfl, fun _ _ T => rfl,
        g5 hist1 (List.subset_append_left _ _)⟩
    · obtain ⟨hist1, hist2, left1, left2, R, s1, s2, t1, t2, -, g1, g2, g3, g4, g5⟩ := process_facts p hcalls p.start last.machine
        (.refl _) rfl hstart records hrec
      exact ⟨hist1 ++ hist2, left2, R, s1.append s2, t2, g1, g2, g3, fun h1 h2 => absurd ⟨h1, h2⟩ hq, g5 _ (fun _ h => h)⟩
  obtain ⟨hist, left, R, hserved, htodo, hgo, hR, hRp, hRe, hrecs⟩ := hfacts
  -- what is found at each look
  have hfind : ∀ m : Look ρ, ∃ r : List (Obj Disk.Bytes) × Disk, m ∈ sits.map (·.1) ++ [last] → m.objects v p obj = .ok r.1 ∧
      Mirror lists (rangeReader w t t prefixes flt) r.1 r.2 ∧
      (∀ now rnd, Reader.openReader (rangeReader w t t prefixes flt) now rnd (diskBlobsAt r.2.names)
        = if (sentTo ls t sb p.ids (cut m)).map (nameFor w.format) = [] then .error .dataNotFound
          else .ok (0, (sentTo ls t sb p.ids (cut m)).map (nameFor w.format))) ∧
      ((sentTo ls t sb p.ids (cut m)).map (nameFor w.format)).Pairwise (fun x y => x < y) ∧
      Names ((sentTo ls t sb p.ids (cut m)).map (nameFor w.format)) ∧
      ∀ y ∈ sentTo ls t sb p.ids (cut m), Disk.read r.2 (nameFor w.format y) = .ok y.2.2 ∧
        BlobName w.format (nameFor w.format y) := by
    intro m
    by_cases hmm : m ∈ sits.map (·.1) ++ [last]
    · obtain ⟨s', d', h⟩ := look_moment hw hy p hv hsf hS ht obj hplace m (fun x hx => hgo x ((hpre m hmm).subset hx)) prefixes hallow
      exact ⟨(s', d'), fun _ => h⟩
    · exact ⟨([], emptyDisk), fun h => absurd h hmm⟩
  choose found hfound using hfind
  let names : Look ρ → List Str := fun m => (sentTo ls t sb p.ids (cut m)).map (nameFor w.format)
  let content : Str → List (Item ρ) := fun b => readBlob lib {} b (Disk.read (found last).2 b)
  have hfinds : ∀ m ∈ sits.map (·.1) ++ [last], Finds lib (rangeReader w t t prefixes flt) content (found m).2 (names m) := by
    intro m hmm
    obtain ⟨-, -, h1, -, -, h2⟩ := hfound m hmm
    obtain ⟨-, -, -, -, -, h3⟩ := hfound last hl
    refine ⟨h1, ?_⟩
    intro b hb
    obtain ⟨x, hx, rfl⟩ := List.mem_map.1 hb
    show _ = readBlob lib {} _ (Disk.read (found last).2 _)
    have hle : m.stored ≤ last.stored := by
      rcases List.mem_append.1 hmm with h | h
      · exact ((List.pairwise_append.1 hm.order).2.2 m h last (by simp)).2
      · rw [List.mem_singleton.1 h]
    rw [(h2 x hx).1, (h3 x ((sentTo_grows (hcut m hmm last (hlast m hmm) hle) t sb p.ids).subset hx)).1]
  have hmirror : ∀ m ∈ sits.map (·.1) ++ [last], Mirror lists (rangeReader w t t prefixes flt) (found m).1 (found m).2 :=
    fun m hmm => (hfound m hmm).2.1
  have hnames : ∀ m ∈ sits.map (·.1) ++ [last], Names (names m) := fun m hmm => (hfound m hmm).2.2.2.2.1
  have hsorted : ∀ m ∈ sits.map (·.1) ++ [last], sorted strLe (names m) = names m := fun m hmm =>
    sorted_of_lt (hfound m hmm).2.2.2.1
  have hcutgo : ∀ m ∈ sits.map (·.1) ++ [last], ∀ x ∈ handed (cut m), Goes ls subs S x.1 := by
    intro m hmm x hx
    rw [handed_cut] at hx
    exact hgo x ((hpre m hmm).subset (List.mem_of_mem_take hx))
  have hcutlen : ∀ m ∈ sits.map (·.1) ++ [last], (handed (cut m)).length ≤ p.ids.length := by
    intro m hmm
    rw [handed_cut]
    exact (List.length_take_le' _ _).trans ((hpre m hmm).length_le.trans hplace.enough)
  have hcount : ∀ m ∈ sits.map (·.1) ++ [last], (names m).length = (m.blobs (place ls t sb)).length := by
    intro m hmm
    have h := congrArg List.length ((sentTo_bytes hy hsb hS (hS t ht) (cut m) (hcutgo m hmm) p.ids (hcutlen m hmm)).trans
      (blobs_cut m (place ls t sb)))
    simpa [names] using h
  obtain ⟨got, doc, rest, g1, g2, g3, g4⟩ := sit_following hash (sits.map fun s => ((found s.1).2, names s.1, s.2)) (found last).2
    (names last)
    (by
      intro s' hs'
      obtain ⟨s, hs, rfl⟩ := List.mem_map.1 hs'
      exact hfinds s.1 (List.mem_append_left _ (List.mem_map_of_mem hs)))
    (hfinds last hl)
    (by
      have e : (sits.map fun s => ((found s.1).2, names s.1, s.2)).map (·.2.1) ++ [names last]
          = (sits.map (·.1) ++ [last]).map names := by
        rw [List.map_append, List.map_map, List.map_map]; rfl
      rw [e, List.pairwise_map]
      refine List.Pairwise.imp_of_mem ?_ hm.order
      intro x y hx hy hxy
      rw [hsorted x hx, hsorted y hy]
      exact (sentTo_grows (hcut x hx y hxy.1 hxy.2) t sb p.ids).map _)
    (by
      intro s' hs'
      obtain ⟨s, hs, rfl⟩ := List.mem_map.1 hs'
      have hsm : s.1 ∈ sits.map (·.1) ++ [last] := List.mem_append_left _ (List.mem_map_of_mem hs)
      show names s.1 = [] ∨ _ ≤ 8 * (((names s.1).length + 7) / 8)
      rw [← List.length_eq_zero_iff, hcount s.1 hsm, hcount last hl, List.length_eq_zero_iff]
      exact hnot s hs)
    (hnames last hl).nodup (hnames last hl).nonempty
    (by
      intro x hx
      refine hhash (found last).1 now rnd 0 (names last) (hfound last hl).1 ?_ x hx
      rw [(hmirror last hl).opened, (hfinds last hl).opened, if_neg (List.ne_nil_of_mem hx)])
    now rnd
  -- the records
  obtain ⟨gs, k1, k2, -⟩ := hR (place ls t sb)
  obtain ⟨i, hi⟩ : ∃ i, i = (blobsAt (cut last) (place ls t sb)).length := ⟨_, rfl⟩
  have hbp : blobsAt (cut last) (place ls t sb) <+: blobsAt last.machine.pool.store (place ls t sb) := by
    rw [blobsAt_handed, blobsAt_handed, handed_cut]
    exact ((List.take_prefix _ _).filter _).map _
  have hgi : blobsAt (cut last) (place ls t sb) = (gs.take i).map (Writer.Spec.encode p.conf.blob.codec p.conf.blob.format) := by
    rw [List.prefix_iff_eq_take.1 hbp, ← hi, k1, List.map_take]
  have hpf : (gs.take i).flatten <+: R (place ls t sb) := by
    rw [← k2]
    conv_rhs => rw [← List.take_append_drop i gs, List.flatten_append]
    exact List.prefix_append _ _
  have hrows : (names last).flatMap content = (gs.take i).flatten.map .row := by
    refine read_full hfmt hread.faithful hread.truthy (Disk.read (found last).2) (sentTo ls t sb p.ids (cut last)) (gs.take i) ?_ ?_ ?_ ?_
    · rw [sentTo_bytes hy hsb hS (hS t ht) (cut last) (hcutgo last hl) p.ids (hcutlen last hl), hgi, hc]
    · exact fun x hx => hrecs _ ((hRp _).subset (hpf.subset hx))
    · exact fun x hx => ((hfound last hl).2.2.2.2.2 x hx).2
    · exact fun x hx => ((hfound last hl).2.2.2.2.2 x hx).1
  refine ⟨hist, left, fun m => (found m).1, fun m => Cursor.inOrder content (names m), got, rest, (gs.take i).flatten, hserved, htodo,
    ⟨?_, ⟨doc, ?_, ?_⟩, ?_, g4⟩, ?_, hpf.trans (hRp _), ?_⟩
  · intro m hmm
    refine ⟨(hfound m hmm).1, fun now rnd => ?_⟩
    rw [(hmirror m hmm).sitOut]
    exact sitOut_finds (hfinds m hmm) (hnames m hmm).nodup (hnames m hmm).nonempty hash now rnd
  · rw [List.map_map] at g1
    have h := sitInAll_mirror (a := rangeReader w t t prefixes flt) hash lib (sits.map fun s => ((found s.1).1, (found s.1).2, s.2))
      (by
        intro x hx
        obtain ⟨s, hs, rfl⟩ := List.mem_map.1 hx
        exact hmirror s.1 (List.mem_append_left _ (List.mem_map_of_mem hs))) none
    rw [List.map_map, List.map_map] at h
    exact h.trans g1
  · rw [(hmirror last hl).sitOut]
    exact g2
  · rw [g3, List.map_map]; rfl
  · show (sorted strLe (names last)).flatMap content = _
    rw [hsorted last hl]
    exact hrows
  · intro h1 h2 h3
    have e : gs.take i = gs := by
      apply List.take_of_length_le
      have : (gs.map (Writer.Spec.encode p.conf.blob.codec p.conf.blob.format)).length = i := by
        rw [← k1, hi, blobsAt_handed, blobsAt_handed, handed_cut, h3, List.take_length]
      rw [← this, List.length_map]
    rw [e, k2]
    exact hRe h1 h2 _

end

/-- **C118 (following a day).**  Threads of a process call its stream writer, which has a folder for each day on Google
Cloud Storage or MinIO.  A caller follows one day: again and again, at any moment, with any calls under way and with any number of the blobs
handed over stored, it makes a reader of that day with the cursor it saved the time before (if it is told that there is
no data it comes back later), takes some records and saves the cursor.  In all, each time it is given the next records of those
that a reader without a cursor would deliver then, and at last, reading to the end, the rest; if no call is under way then,
no writer is open and all has been stored, this is, once each and in order, every valid record appended on that day.

Partial: the day does not get a blob too many for a saved cursor (`NotBeyond`), and hashes of names differ.  The reader is of one day:
on MinIO one of two days cannot be gone on with (`C118_minio_two_days_fails`). -/
theorem C118_follow_day_partial {w : Job} {ls : List (List Piece)} (hw : Daily w ls) (hn : Nested ls)
    (hfmt : w.format ≠ "text".toList) {S : DateTime → Prop} {v : Cloud.Service} {lists : Lists}
    (hv : Service.Reads v lists) (p : Process ρ β) (date : Option DateTime)
    (hset : p.setup = dayWriter w date) (field : ρ → Str → Targets.Field β) (lib : Lib ρ) (records : List ρ)
    (hp : Sends w field S lib records p) {t : DateTime} (ht : S t) (sits : List (Look ρ × Sitting)) (last : Look ρ)
    (hm : Looks p sits last) (obj : List (Obj Disk.Bytes))
    (hplace : Place ls S obj p.ids (handed last.machine.pool.store).length)
    (hnot : NotBeyond sits last (place ls t [])) (prefixes : List Str)
    (hallow : Reader.allowed prefixes w.dataset = true) (hash : Str → Nat)
    (hhash : ToldApart v lists hash (rangeReader w t t prefixes) p obj last) (now : DateTime) (rnd : Str) :
    ∃ (hist : List (Nat × Call ρ β)) (left : Nat → List (Call ρ β)) (objs : Look ρ → List (Obj Disk.Bytes))
      (whole : Look ρ → List (Item ρ)) (got : List (List (Item ρ))) (rest : List (Item ρ)) (rows : List ρ),
      Served p.calls hist left ∧ (∀ t, last.machine.todo t = (left t).map (op p.setup p.valid p.str)) ∧
      Followed v lists hash lib (rangeReader w t t prefixes) p obj sits last now rnd objs whole got rest ∧
      whole last = rows.map .row ∧ rows <+: p.appended (fun u => midnight u = t) hist ∧
      (last.machine.owner = none → last.machine.pool.writers = [] → last.stored = (handed last.machine.pool.store).length →
        rows = p.appended (fun u => midnight u = t) hist) := by
  have hS := hp.asked.day
  have hs : p.setup.template = join ['/'] ((ls ++ []).map template) := by rw [hset]; exact day_template hw date (hS t ht)
  have hy := layout_plain hw hn
  obtain ⟨hist, left, objs, whole, got, rest, rows, s1, s2, s3, s4, s5, s6⟩ := follow_core hw hfmt hy hv p
    (by rw [hset]; rfl) hp.format hS ht (fun t a ha r ts h => timed_goes hw hy timed_plain hs hS (hp.asked.ok t a ha) h)
    sits last hm obj hplace hnot lib records hp.asked.records ⟨hp.faithful, hp.truthy⟩ prefixes hallow hash hhash now rnd
  have e : routed (p.asks hist) (place ls t []) = p.appended (fun u => midnight u = t) hist := by
    refine (routed_place hw hy timed_plain hs hS (hS t ht) (by simp) hist (fun x hx => hp.asked.ok _ _ (s1.mem hx))).trans ?_
    exact plain_congr _ _ _ _
  rw [e] at s5 s6
  exact ⟨hist, left, objs, whole, got, rest, rows, s1, s2, s3, s4, s5, s6⟩

/-- **C118 (following a value).**  The same for a writer that partitions by a field, and a caller who follows, with a
filter, the records of one day with one value. -/
theorem C118_follow_value_partial {w : Job} {ls : List (List Piece)} (hw : Daily w ls)
    (hby : ∀ t, Day t → contains "by_".toList (join ['/'] (folderOf ls t)) = false)
    (hfmt : w.format ≠ "text".toList) {S : DateTime → Prop} {v : Cloud.Service} {lists : Lists}
    (hv : Service.Reads v lists) (p : Process ρ β) (date : Option DateTime) (F : Str)
    (hset : p.setup = fieldWriter w F date) (field : ρ → Str → Targets.Field β) (lib : Lib ρ) (records : List ρ)
    (hp : Sends w field S lib records p) (flt : PartitionFilter) (hflt : Asks F flt)
    (hone : OneValue p.str field F flt.value records)
    {t : DateTime} (ht : S t) (sits : List (Look ρ × Sitting)) (last : Look ρ)
    (hm : Looks p sits last) (obj : List (Obj Disk.Bytes))
    (hplace : Place ls S obj p.ids (handed last.machine.pool.store).length)
    (hnot : NotBeyond sits last (place ls t (fieldFolders F (sanitize flt.value)))) (prefixes : List Str)
    (hallow : Reader.allowed prefixes w.dataset = true) (hash : Str → Nat)
    (hhash : ToldApart v lists hash (rangeReader w t t prefixes (some flt)) p obj last) (now : DateTime) (rnd : Str) :
    ∃ (hist : List (Nat × Call ρ β)) (left : Nat → List (Call ρ β)) (objs : Look ρ → List (Obj Disk.Bytes))
      (whole : Look ρ → List (Item ρ)) (got : List (List (Item ρ))) (rest : List (Item ρ)) (rows : List ρ),
      Served p.calls hist left ∧ (∀ t, last.machine.todo t = (left t).map (op p.setup p.valid p.str)) ∧
      Followed v lists hash lib (rangeReader w t t prefixes (some flt)) p obj sits last now rnd objs whole got rest ∧
      whole last = rows.map .row ∧
      rows <+: appended date (fun r => p.valid r && has p.str field F flt.value r) (fun u => midnight u = t) hist ∧
      (last.machine.owner = none → last.machine.pool.writers = [] → last.stored = (handed last.machine.pool.store).length →
        rows = appended date (fun r => p.valid r && has p.str field F flt.value r) (fun u => midnight u = t) hist) := by
  have hS := hp.asked.day
  have hF := hflt.name
  have hs : p.setup.template = join ['/'] ((ls ++ fieldPieces F).map template) ++ '{' :: (F ++ ['}']) := by
    rw [hset]; exact field_template hw F date (hS t ht)
  have hy := layout_field hw hby hF
    (field_values_safe (str := p.str) (field := field) (F := F) (x := flt.value) (records := records))
    flt hflt.field hflt.op (by simp [fieldValues]) hflt.value
  obtain ⟨hist, left, objs, whole, got, rest, rows, s1, s2, s3, s4, s5, s6⟩ := follow_core hw hfmt hy hv p
    (by rw [hset]; rfl) hp.format hS ht
    (fun t a ha r ts h => field_goes hw hF hs hS (hp.asked.ok t a ha)
      (fun now r names combos e => hp.asked.records t now r names combos (e ▸ ha)) h)
    sits last hm obj hplace hnot lib records hp.asked.records ⟨hp.faithful, hp.truthy⟩ prefixes hallow hash hhash now rnd
  have e := field_routed hw hF hy hs hS hone (hS t ht) hist (fun x hx => hp.asked.ok _ _ (s1.mem hx))
      (fun t now r names combos hx => hp.asked.records t now r names combos (s1.mem hx))
  have ed : p.setup.date = date := by rw [hset]; rfl
  rw [ed] at e
  have e : routed (p.asks hist) (place ls t (fieldFolders F (sanitize flt.value)))
      = appended date (fun r => p.valid r && has p.str field F flt.value r) (fun u => midnight u = t) hist := e
  rw [e] at s5 s6
  exact ⟨hist, left, objs, whole, got, rest, rows, s1, s2, s3, s4, s5, s6⟩

/-! ## A concrete case -/

/-- Non-vacuity: the caller has a sitting before the first call, one when a thread is in the middle of a call and the day
has one blob, one when the process has been finalized and not all has been stored, and reads to the end when all has been. -/
example : ∃ m last : Machine (Fin 10),
    m.owner ≠ none ∧ last.owner = none ∧ last.pool.writers = [] ∧
    let sits : List (Look (Fin 10) × Sitting) := [(⟨(demoProcess demoBlobIds).start, 0⟩, ⟨History.feb28, [], 5⟩),
      (⟨m, 1⟩, ⟨History.feb28, "x".toList, 1⟩), (⟨last, 3⟩, ⟨History.feb28, [], 1⟩)]
    Looks (demoProcess demoBlobIds) sits ⟨last, 4⟩ ∧ (handed last.pool.store).length = 4 ∧
    ((⟨m, 1⟩ : Look (Fin 10)).blobs (place demoFolders History.feb28 [])).length = 1 ∧
    ((⟨last, 4⟩ : Look (Fin 10)).blobs (place demoFolders History.feb28 [])).length = 2 ∧
    Place demoFolders demoS Cloud.demoObjs (demoProcess demoBlobIds).ids (handed last.pool.store).length ∧
    NotBeyond sits ⟨last, 4⟩ (place demoFolders History.feb28 []) := by
  obtain ⟨m, h1, h2⟩ := demo_after (s := dayWriter zJob none)
    (turns := List.replicate 4 0 ++ List.replicate 8 1 ++ List.replicate 6 2 ++ List.replicate 6 0)
    (P := fun m => (m.owner.isSome && ((⟨m, 1⟩ : Look (Fin 10)).blobs (place demoFolders History.feb28 [])).length == 1
        && (handed m.pool.store).length != 0) &&
      (Stream.schedule demoConf m (List.replicate 9 0)).any fun m => m.owner.isNone && m.pool.writers.isEmpty &&
        (handed m.pool.store).length == 4 &&
        ((⟨m, 3⟩ : Look (Fin 10)).blobs (place demoFolders History.feb28 [])).length != 0 &&
        ((⟨m, 4⟩ : Look (Fin 10)).blobs (place demoFolders History.feb28 [])).length == 2) (by decide +kernel)
  rw [Bool.and_eq_true] at h2
  obtain ⟨h2, h3⟩ := h2
  cases he : Stream.schedule demoConf m (List.replicate 9 0) with
  | none => rw [he] at h3; cases h3
  | some last =>
    rw [he] at h3
    have h4 := Stream.schedule_reach demoConf _ (.refl m) he
    simp only [Option.any_some, Bool.and_eq_true, Option.isNone_iff_eq_none, List.isEmpty_iff, beq_iff_eq, Option.isSome_iff_ne_none,
      bne_iff_ne, ne_eq] at h2 h3
    have h5 : Reach demoConf (demoProcess demoBlobIds).start last := Stream.schedule_reach demoConf _ h1 he
    obtain ⟨⟨h6, h7⟩, h8⟩ := h2
    obtain ⟨⟨⟨⟨h9, h10⟩, h11⟩, h12⟩, h13⟩ := h3
    refine ⟨m, last, h6, h9, h10, ⟨?_, ?_, ?_⟩, h11, h7, h13, ?_, ?_⟩
    · intro x hx
      simp only [List.map_cons, List.map_nil, List.cons_append, List.nil_append, List.mem_cons, List.not_mem_nil, or_false] at hx
      rcases hx with rfl | rfl | rfl | rfl
      · exact .refl _
      · exact h1
      · exact h5
      · exact h5
    · show List.Pairwise (fun x y : Look (Fin 10) => Reach demoConf x.machine y.machine ∧ x.stored ≤ y.stored)
        [⟨(demoProcess demoBlobIds).start, 0⟩, ⟨m, 1⟩, ⟨last, 3⟩, ⟨last, 4⟩]
      have r1 : Reach demoConf (demoProcess demoBlobIds).start m := h1
      simp only [List.pairwise_cons, List.mem_cons, List.not_mem_nil, or_false, forall_eq_or_imp, forall_eq, List.Pairwise.nil,
        and_true]
      exact ⟨⟨⟨r1, by decide⟩, ⟨h5, by decide⟩, h5, by decide⟩, ⟨⟨h4, by decide⟩, h4, by decide⟩, ⟨.refl _, by decide⟩,
        fun _ h => h.elim⟩
    · intro x hx
      simp only [List.map_cons, List.map_nil, List.cons_append, List.nil_append, List.mem_cons, List.not_mem_nil, or_false] at hx
      rcases hx with rfl | rfl | rfl | rfl
      · exact Nat.zero_le _
      · exact Nat.pos_of_ne_zero h8
      · show 3 ≤ _; rw [h11]; decide
      · show 4 ≤ _; rw [h11]
    · rw [h11]
      exact demo_place 4 (by decide)
    · intro x hx
      simp only [List.mem_cons, List.not_mem_nil, or_false] at hx
      rcases hx with rfl | rfl | rfl
      · exact Or.inl rfl
      · right
        rw [h7, h13]
        decide
      · right
        rw [h13]
        show 2 ≤ 8 * ((((⟨last, 3⟩ : Look (Fin 10)).blobs (place demoFolders History.feb28 [])).length + 7) / 8)
        omega

/-- The other hypotheses hold as well. -/
example {v : Cloud.Service} {lists : Lists} (hv : Service.Reads v lists) (sits : List (Look (Fin 10) × Sitting)) (last : Look (Fin 10)) (hm : Looks (demoProcess demoBlobIds) sits last)
    (hplace : Place demoFolders demoS Cloud.demoObjs (demoProcess demoBlobIds).ids (handed last.machine.pool.store).length)
    (hnot : NotBeyond sits last (place demoFolders History.feb28 [])) (now : DateTime) (rnd : Str) :=
  C118_follow_day_partial History.daily WriterInit.demo_nested (by decide) hv (demoProcess demoBlobIds) none rfl (fun _ _ => .one ())
    tornLib [1, 2, 3, 4, 7] (demo_writes _).sends (t := History.feb28) (by decide) sits last hm Cloud.demoObjs hplace hnot
    ["tests/".toList] (by decide) properHash (fun _ _ _ _ _ _ _ _ _ _ _ h => properHash_inj h) now rnd

/-! ## Where it fails -/

/-- What a caller gets who has a sitting with a reader of the days from February 28 to `stop`, takes `k` records, and then reads
to the end, when one blob with two records is there. -/
def twoSittingsIn (v : Cloud.Service) (lists : Lists) (stop : DateTime) (k : Nat) :
    Option (List (Item (Fin 10)) × List (Item (Fin 10))) :=
  let store := (run demoConf { clock := [0, 1, 2, 3, 4] } ([.append morning 1 [] [[]], .append morning 2 [] [[]], .finalize].map
    (op (dayWriter zJob none) demoValid fun (_ : Unit) => []))).store
  match inObjects v (dayWriter zJob none) ["1a-1".toList] Cloud.demoObjs store 1 with
  | .error _ => none
  | .ok s =>
    match sitIn lists (fun b => b.length) tornLib (rangeReader zJob History.feb28 stop ["tests/".toList]) s
        ⟨History.feb28, [], k⟩ none with
    | .error _ => none
    | .ok (got, doc) =>
      match sitInOut lists (fun b => b.length) tornLib (rangeReader zJob History.feb28 stop ["tests/".toList])
          History.feb28 [] s doc with
      | .error _ => none
      | .ok rest => some (got, rest)

/-- **On MinIO a reader of two days cannot be gone on with**: after one of two records, or both, the next reader begins again.
With one day, and on Google Cloud Storage, it goes on where the first stopped. -/
theorem C118_minio_two_days_fails :
    twoSittingsIn minio byMinio History.feb29 1 = some ([.row 1], [.row 1, .row 2]) ∧
    twoSittingsIn minio byMinio History.feb29 2 = some ([.row 1, .row 2], [.row 1, .row 2]) ∧
    twoSittingsIn minio byMinio History.feb28 1 = some ([.row 1], [.row 2]) ∧
    twoSittingsIn gcs byGcs History.feb29 1 = some ([.row 1], [.row 2]) := by
  decide +kernel

end Mabel.CloudStream
