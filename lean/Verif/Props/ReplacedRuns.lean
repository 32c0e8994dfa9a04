import Verif.Props.Replaced
import Verif.Props.FollowStream
import Verif.Props.History

/-!
# Reading a day in sittings while it is written again: C117
-/

namespace Mabel.History
open Mabel.Py Mabel.Paths Mabel.Naming Mabel.Spec Mabel.Listing Mabel.EndToEnd Mabel.Dates
open Mabel.Blobs (Lib Faithful delivered Item readBlob readSerial Names formatOf demoLib' demo_faithful)
open Mabel.Cursor (Doc handOut inOrder session readAll)
open Mabel.StreamStorage (Sitting sit sitAll sitOut Finds sitOut_finds sit_following)
open Mabel.Disk hiding Bytes
variable {ρ : Type}

/-- The names of the blobs of a run. -/
def namesOf (w : Job) (ls : List (List Piece)) (r : Run ρ) : List Str :=
  (blobsOf r).map (fun p => nameOf w ls r.now p.1)

theorem namesOf_map (w : Job) (ls : List (List Piece)) (r : Run ρ) :
    namesOf w ls r = ((blobsOf r).map Prod.fst).map (nameOf w ls r.now) := by
  rw [namesOf, List.map_map]; rfl

theorem namesOf_nodup {w : Job} {ls : List (List Piece)} {r : Run ρ} (h : r.OK w) : (namesOf w ls r).Nodup := by
  rw [namesOf_map]
  exact nodup_of_lt (nameOf_lt h.pairwise)

theorem namesOf_ne {w : Job} {ls : List (List Piece)} {r : Run ρ} : [] ∉ namesOf w ls r := by
  intro hx
  obtain ⟨i, -, hi'⟩ := List.mem_map.1 hx
  simp [nameOf, Framed.path] at hi'

/-- The disk after a run that came to its end and others that did not, as a reader finds it. -/
theorem found_run
    (w : Job) (ls : List (List Piece)) (h : w.OK ls) (hb : PlainBase (w.base ls)) (hfmt : w.format ≠ "text".toList)
    (hday : ∀ rnd, cyclePath (readerDataset w.dataset w.partitions) rnd (midnight w.date)
      = cyclePath (readerDataset w.dataset w.partitions) rnd w.date)
    (d : Disk) (hd : Fresh (ls.map (filled w.date)) d)
    (pre post : List (Run ρ)) (r : Run ρ) (hok : ∀ r' ∈ pre ++ r :: post, r'.OK w)
    (hord : (pre ++ r :: post).Pairwise (fun a b => a.now.seconds < b.now.seconds))
    (hfin : r.Finished w) (hne : r.records.filter r.config.valid ≠ []) (hpost : ∀ r' ∈ post, ¬ r'.Finished w)
    (lib : Lib ρ) (hl : Faithful r.config.codec lib r.records) (ht : ∀ x ∈ r.records, lib.truthy x = true)
    (freshness : Str) (prefixes : List Str) (hallow : Reader.allowed prefixes w.dataset = true) :
    ∃ d', afterRuns w d (pre ++ r :: post) = .ok d' ∧
      (∀ p ∈ blobsOf r, read d' (nameOf w ls r.now p.1) = .ok p.2) ∧
      Finds lib (dayReader w freshness prefixes) (fun x => readBlob lib {} x (read d' x)) d' (namesOf w ls r) ∧
      inOrder (fun x => readBlob lib {} x (read d' x)) (namesOf w ls r) = (r.records.filter r.config.valid).map .row := by
  have hr := hok r (by simp)
  have key := fun now rnd => read_while_written w ls h hb hfmt rnd (hday rnd) d hd pre post r hok hord hfin hne hpost lib hl ht
    now freshness prefixes hallow (fun _ => 0)
  obtain ⟨d', l, h1, h2, h3, h4, -, h6⟩ := key w.date []
  refine ⟨d', h1, h4, ⟨?_, fun _ _ => rfl⟩, ?_⟩
  · intro now rnd
    obtain ⟨d'', l', k1, k2, k3, -, k5, -⟩ := key now rnd
    rw [h1] at k1
    cases k1
    rw [k5, k2]
    rw [k2] at k3
    exact (if_neg k3).symm
  · have := h6 (read d') (fun x => ⟨[], d', by simp, by simpa using hord, rfl, rfl⟩)
    rw [(Mabel.Blobs.delivered_eq _ lib {} (read d') l (by rw [h2]; exact ⟨namesOf_nodup hr, namesOf_ne⟩)).1, h2] at this
    exact this

/-- **C117.**  A day is written by any number of runs of a batch writer, and `r` is the last that came to its end.  A caller
reads the day in any number of sittings: in each it takes some records and saves its cursor, and the next goes on from the
cursor that was saved.  During all of this further runs may start, be stopped, or be told to fail, so that the disk is
another at each sitting.  Then the caller gets every record that was valid for `r` once, in the order they were appended,
and each sitting gives as many as were asked for, as far as there are so many. -/
theorem C117_sittings_partial
    -- the dataset, the day and the format
    (w : Job) (ls : List (List Piece)) (h : w.OK ls) (hb : PlainBase (w.base ls)) (hfmt : w.format ≠ "text".toList)
    (hday : ∀ rnd, cyclePath (readerDataset w.dataset w.partitions) rnd (midnight w.date)
      = cyclePath (readerDataset w.dataset w.partitions) rnd w.date)
    -- the disk before
    (d : Disk) (hd : Fresh (ls.map (filled w.date)) d)
    -- the runs up to the last that came to its end
    (pre : List (Run ρ)) (r : Run ρ) (hfin : r.Finished w) (hne : r.records.filter r.config.valid ≠ [])
    -- the sittings, each with the runs that have been made since then, and those at the end
    (sits : List (List (Run ρ) × Disk × Sitting)) (last : List (Run ρ)) (dlast : Disk)
    (hok : ∀ post ∈ last :: sits.map (·.1), ∀ r' ∈ pre ++ r :: post, r'.OK w)
    (hord : ∀ post ∈ last :: sits.map (·.1), (pre ++ r :: post).Pairwise (fun a b => a.now.seconds < b.now.seconds))
    (hpost : ∀ post ∈ last :: sits.map (·.1), ∀ r' ∈ post, ¬ r'.Finished w)
    (hdisks : ∀ s ∈ sits, afterRuns w d (pre ++ r :: s.1) = .ok s.2.1) (hdlast : afterRuns w d (pre ++ r :: last) = .ok dlast)
    -- the libraries; no record is empty (see C70)
    (lib : Lib ρ) (hl : Faithful r.config.codec lib r.records) (ht : ∀ x ∈ r.records, lib.truthy x = true)
    -- the reader; the hash by which a cursor refers to a blob is another for each of the blobs of the run
    (freshness : Str) (prefixes : List Str) (hallow : Reader.allowed prefixes w.dataset = true) (hash : Str → Nat)
    (hi : ∀ i < r.count, ∀ j < r.count, ∀ x y,
      batchBlob w.dataset w.partitions (asAtName r.now) w.date w.rnd w.format (r.ids i) = .ok x →
      batchBlob w.dataset w.partitions (asAtName r.now) w.date w.rnd w.format (r.ids j) = .ok y → hash x = hash y → x = y)
    (now : DateTime) (rnd : Str) :
    ∃ got doc rest, sitAll hash lib (dayReader w freshness prefixes) (sits.map (·.2)) none = .ok (got, doc) ∧
      sitOut hash lib (dayReader w freshness prefixes) now rnd dlast doc = .ok rest ∧
      got.flatten ++ rest = (r.records.filter r.config.valid).map .row ∧
      got = handOut 0 (sits.map fun s => ((r.records.filter r.config.valid).map .row, s.2.2.take)) := by
  have hr := hok last (by simp) r (by simp)
  have found := fun post (hp : post ∈ last :: sits.map (·.1)) => found_run w ls h hb hfmt hday d hd pre post r (hok post hp)
    (hord post hp) hfin hne (hpost post hp) lib hl ht freshness prefixes hallow
  obtain ⟨d', e1, e2, e3, e4⟩ := found last (by simp)
  rw [hdlast] at e1
  cases e1
  have hfinds : ∀ s ∈ sits.map (fun s => (s.2.1, namesOf w ls r, s.2.2)),
      Finds lib (dayReader w freshness prefixes) (fun x => readBlob lib {} x (read dlast x)) s.1 s.2.1 := by
    intro s hs'
    obtain ⟨s, hs, rfl⟩ := List.mem_map.1 hs'
    obtain ⟨d'', k1, k2, k3, -⟩ := found s.1 (by simp only [List.mem_cons, List.mem_map]; exact Or.inr ⟨s, hs, rfl⟩)
    rw [hdisks s hs] at k1
    cases k1
    refine ⟨k3.opened, ?_⟩
    intro b hb
    obtain ⟨p, hp, rfl⟩ := List.mem_map.1 hb
    simp only [k2 p hp, e2 p hp]
  obtain ⟨got, doc, rest, g1, g2, g3, g4⟩ := sit_following hash (sits.map (fun s => (s.2.1, namesOf w ls r, s.2.2))) dlast
    (namesOf w ls r) hfinds e3 (by
      rw [List.map_map, List.pairwise_append]
      refine ⟨?_, List.pairwise_singleton _ _, ?_⟩
      · rw [List.pairwise_map]
        exact List.pairwise_of_forall (fun _ _ => List.prefix_rfl)
      · intro x hx y hy
        obtain ⟨s, -, rfl⟩ := List.mem_map.1 hx
        rw [List.mem_singleton.1 hy]
        exact List.prefix_rfl)
    (by
      intro s hs
      obtain ⟨s, hs, rfl⟩ := List.mem_map.1 hs
      right
      simp only
      omega)
    (namesOf_nodup hr) namesOf_ne (by
      intro x hx y hy hxy
      rw [namesOf_map, blobsOf_fst, List.map_map] at hx hy
      obtain ⟨i, hi', rfl⟩ := List.mem_map.1 hx
      obtain ⟨j, hj', rfl⟩ := List.mem_map.1 hy
      exact hi i (List.mem_range.1 hi') j (List.mem_range.1 hj') _ _ (batchBlob_eq h hr.now _) (batchBlob_eq h hr.now _) hxy) now rnd
  refine ⟨got, doc, rest, ?_, g2, by rw [g4, e4], ?_⟩
  · rw [← g1, List.map_map]
    rfl
  · rw [g3, List.map_map, ← e4]
    rfl

/-- A caller that had a sitting before a day was written again, and goes on. -/
theorem again_core
    (w : Job) (ls : List (List Piece)) (h : w.OK ls) (hb : PlainBase (w.base ls)) (hfmt : w.format ≠ "text".toList)
    (hday : ∀ rnd, cyclePath (readerDataset w.dataset w.partitions) rnd (midnight w.date)
      = cyclePath (readerDataset w.dataset w.partitions) rnd w.date)
    (d : Disk) (hd : Fresh (ls.map (filled w.date)) d)
    -- the runs before the sitting and after it; `r` and `r'` are those that came to their end
    (pre mid post : List (Run ρ)) (r r' : Run ρ) (hok : ∀ x ∈ pre ++ r :: (mid ++ r' :: post), x.OK w)
    (hord : (pre ++ r :: (mid ++ r' :: post)).Pairwise (fun a b => a.now.seconds < b.now.seconds))
    (hfin : r.Finished w) (hne : r.records.filter r.config.valid ≠ []) (hmid : ∀ x ∈ mid, ¬ x.Finished w)
    (hfin' : r'.Finished w) (hne' : r'.records.filter r'.config.valid ≠ []) (hpost : ∀ x ∈ post, ¬ x.Finished w)
    -- the disk at the sitting, and when the caller goes on
    (d1 d2 : Disk) (hd1 : afterRuns w d (pre ++ r :: mid) = .ok d1)
    (hd2 : afterRuns w d (pre ++ r :: (mid ++ r' :: post)) = .ok d2)
    (lib : Lib ρ) (hl : Faithful r.config.codec lib r.records) (ht : ∀ x ∈ r.records, lib.truthy x = true)
    (hl' : Faithful r'.config.codec lib r'.records) (ht' : ∀ x ∈ r'.records, lib.truthy x = true)
    (freshness : Str) (prefixes : List Str) (hallow : Reader.allowed prefixes w.dataset = true)
    -- the hash of a new name is not that of an old one, nor that of the empty text
    (hash : Str → Nat) (hi : ∀ i < r'.count, ∀ y,
      batchBlob w.dataset w.partitions (asAtName r'.now) w.date w.rnd w.format (r'.ids i) = .ok y → hash y ≠ hash [] ∧
      ∀ j < r.count, ∀ x, batchBlob w.dataset w.partitions (asAtName r.now) w.date w.rnd w.format (r.ids j) = .ok x →
        hash y ≠ hash x)
    (s : Sitting) (hs : 0 < s.take) (now : DateTime) (rnd : Str) :
    ∃ (content : Str → List (Item ρ)) (old new : List Str) (doc : Doc), old.length = r.count ∧ new.length = r'.count ∧
      inOrder content old = (r.records.filter r.config.valid).map .row ∧
      inOrder content new = (r'.records.filter r'.config.valid).map .row ∧
      sit hash lib (dayReader w freshness prefixes) d1 s none
        = .ok (((r.records.filter r.config.valid).map .row).take s.take, some doc) ∧
      sitOut hash lib (dayReader w freshness prefixes) now rnd d2 (some doc) =
        if r'.count ≤ 8 * ((r.count + 7) / 8) then
          .ok (((sorted strLe new).drop (Cursor.passed content (sorted strLe old) s.take)).flatMap content)
        else .error .indexError := by
  have hr := hok r (by simp)
  have hr' := hok r' (by simp)
  have hsub : List.Sublist (pre ++ r :: mid) (pre ++ r :: (mid ++ r' :: post)) :=
    List.Sublist.append_left (List.Sublist.cons_cons _ (List.sublist_append_left _ _)) _
  obtain ⟨d', e1, e2, e3, e4⟩ := found_run w ls h hb hfmt hday d hd pre mid r (fun x hx => hok x (hsub.subset hx))
    (hord.sublist hsub) hfin hne hmid lib hl ht freshness prefixes hallow
  rw [hd1] at e1
  cases e1
  have hassoc : pre ++ r :: (mid ++ r' :: post) = (pre ++ r :: mid) ++ r' :: post := by simp
  obtain ⟨d', k1, k2, k3, k4⟩ := found_run w ls h hb hfmt hday d hd (pre ++ r :: mid) post r' (by rw [← hassoc]; exact hok)
    (by rw [← hassoc]; exact hord) hfin' hne' hpost lib hl' ht' freshness prefixes hallow
  rw [← hassoc, hd2] at k1
  cases k1
  have hcount : ∀ q : Run ρ, (namesOf w ls q).length = q.count := by
    intro q
    rw [namesOf_map, blobsOf_fst]
    simp
  have hmem : ∀ q : Run ρ, q.OK w → ∀ x ∈ namesOf w ls q, ∃ i < q.count,
      batchBlob w.dataset w.partitions (asAtName q.now) w.date w.rnd w.format (q.ids i) = .ok x := by
    intro q hq x hx
    rw [namesOf_map, blobsOf_fst, List.map_map] at hx
    obtain ⟨i, hi', rfl⟩ := List.mem_map.1 hx
    exact ⟨i, List.mem_range.1 hi', batchBlob_eq h hq.now _⟩
  have hhash : ∀ b ∈ namesOf w ls r', hash b ≠ hash [] ∧ ∀ a ∈ namesOf w ls r, hash b ≠ hash a := by
    intro b hb
    obtain ⟨i, hi1, hi2⟩ := hmem r' hr' b hb
    refine ⟨(hi i hi1 b hi2).1, ?_⟩
    intro a ha
    obtain ⟨j, hj1, hj2⟩ := hmem r hr a ha
    exact (hi i hi1 b hi2).2 j hj1 a hj2
  -- what the blobs of both runs hold
  have c1 : ∀ b ∈ namesOf w ls r, (fun x => readBlob lib {} x (read d1 x)) b
      = (fun x => if x ∈ namesOf w ls r then readBlob lib {} x (read d1 x) else readBlob lib {} x (read d2 x)) b :=
    fun b hb => (if_pos hb).symm
  have c2 : ∀ b ∈ namesOf w ls r', (fun x => readBlob lib {} x (read d2 x)) b
      = (fun x => if x ∈ namesOf w ls r then readBlob lib {} x (read d1 x) else readBlob lib {} x (read d2 x)) b :=
    fun b hb => (if_neg (fun ha => (hhash b hb).2 b ha rfl)).symm
  have hempty : ∀ q : Run ρ, ∀ content : Str → List (Item ρ), ∀ v : List (Item ρ), v ≠ [] → inOrder content (namesOf w ls q) = v →
      namesOf w ls q ≠ [] := by
    intro q content v hv e h0
    rw [h0] at e
    exact hv e.symm
  have o1 := e3.opened s.now s.rnd
  rw [if_neg (hempty r _ _ (by simpa using hne) e4)] at o1
  have o2 := k3.opened now rnd
  rw [if_neg (hempty r' _ _ (by simpa using hne') k4)] at o2
  obtain ⟨doc, g1, g2⟩ := Cursor.C117_what_is_delivered hash
    (fun x => if x ∈ namesOf w ls r then readBlob lib {} x (read d1 x) else readBlob lib {} x (read d2 x))
    (namesOf w ls r) (namesOf w ls r') (namesOf_nodup hr) namesOf_ne (namesOf_nodup hr') namesOf_ne hhash s.take hs
  have i1 : inOrder (fun x => if x ∈ namesOf w ls r then readBlob lib {} x (read d1 x) else readBlob lib {} x (read d2 x))
      (namesOf w ls r) = (r.records.filter r.config.valid).map .row := by
    rw [← e4]
    exact List.flatMap_congr fun b hb => (c1 b (mem_sorted.1 hb)).symm
  have i2 : inOrder (fun x => if x ∈ namesOf w ls r then readBlob lib {} x (read d1 x) else readBlob lib {} x (read d2 x))
      (namesOf w ls r') = (r'.records.filter r'.config.valid).map .row := by
    rw [← k4]
    exact List.flatMap_congr fun b hb => (c2 b (mem_sorted.1 hb)).symm
  refine ⟨_, namesOf w ls r, namesOf w ls r', doc, hcount r, hcount r', i1, i2, ?_, ?_⟩
  · rw [sit, o1, ← i1, ← g1]
    exact StreamStorage.session_congr c1 hash none s.take
  · rw [hcount, hcount] at g2
    have e : readSerial hash lib {} (read d2) (namesOf w ls r') (some doc) = readAll hash
        (fun x => if x ∈ namesOf w ls r then readBlob lib {} x (read d1 x) else readBlob lib {} x (read d2 x))
        (namesOf w ls r') (some doc) := StreamStorage.readAll_congr c2 hash (some doc)
    rw [sitOut, o2]
    simp only [e]
    simp only at g2
    by_cases hle : r'.count ≤ 8 * ((r.count + 7) / 8)
    · rw [if_pos hle] at g2 ⊢
      obtain ⟨g2, c, g3⟩ := g2
      rw [g3, g2]
    · rw [if_neg hle] at g2 ⊢
      rw [g2.2]

/-- **C117 (partial: many more blobs).**  A caller has had a sitting and saved its cursor.  Then the day is written again, into
more blobs than there were, counted up to the next multiple of eight.  The caller that goes on with its cursor gets an
IndexError, and no record. -/
theorem C117_many_more_partial
    (w : Job) (ls : List (List Piece)) (h : w.OK ls) (hb : PlainBase (w.base ls)) (hfmt : w.format ≠ "text".toList)
    (hday : ∀ rnd, cyclePath (readerDataset w.dataset w.partitions) rnd (midnight w.date)
      = cyclePath (readerDataset w.dataset w.partitions) rnd w.date)
    (d : Disk) (hd : Fresh (ls.map (filled w.date)) d)
    -- the runs before the sitting and after it; `r` and `r'` are those that came to their end
    (pre mid post : List (Run ρ)) (r r' : Run ρ) (hok : ∀ x ∈ pre ++ r :: (mid ++ r' :: post), x.OK w)
    (hord : (pre ++ r :: (mid ++ r' :: post)).Pairwise (fun a b => a.now.seconds < b.now.seconds))
    (hfin : r.Finished w) (hne : r.records.filter r.config.valid ≠ []) (hmid : ∀ x ∈ mid, ¬ x.Finished w)
    (hfin' : r'.Finished w) (hne' : r'.records.filter r'.config.valid ≠ []) (hpost : ∀ x ∈ post, ¬ x.Finished w)
    -- the disk at the sitting, and when the caller goes on
    (d1 d2 : Disk) (hd1 : afterRuns w d (pre ++ r :: mid) = .ok d1)
    (hd2 : afterRuns w d (pre ++ r :: (mid ++ r' :: post)) = .ok d2)
    (lib : Lib ρ) (hl : Faithful r.config.codec lib r.records) (ht : ∀ x ∈ r.records, lib.truthy x = true)
    (hl' : Faithful r'.config.codec lib r'.records) (ht' : ∀ x ∈ r'.records, lib.truthy x = true)
    (freshness : Str) (prefixes : List Str) (hallow : Reader.allowed prefixes w.dataset = true)
    -- the hash of a new name is not that of an old one, nor that of the empty text
    (hash : Str → Nat) (hi : ∀ i < r'.count, ∀ y,
      batchBlob w.dataset w.partitions (asAtName r'.now) w.date w.rnd w.format (r'.ids i) = .ok y → hash y ≠ hash [] ∧
      ∀ j < r.count, ∀ x, batchBlob w.dataset w.partitions (asAtName r.now) w.date w.rnd w.format (r.ids j) = .ok x →
        hash y ≠ hash x)
    (hmore : 8 * ((r.count + 7) / 8) < r'.count)
    (s : Sitting) (hs : 0 < s.take) (now : DateTime) (rnd : Str) :
    ∃ doc, sit hash lib (dayReader w freshness prefixes) d1 s none
        = .ok (((r.records.filter r.config.valid).map .row).take s.take, some doc) ∧
      sitOut hash lib (dayReader w freshness prefixes) now rnd d2 (some doc) = .error .indexError := by
  obtain ⟨content, old, new, doc, -, -, -, -, g1, g2⟩ := again_core w ls h hb hfmt hday d hd pre mid post r r' hok hord hfin hne hmid hfin' hne' hpost d1 d2 hd1 hd2 lib hl ht hl' ht'
    freshness prefixes hallow hash hi s hs now rnd
  refine ⟨doc, g1, ?_⟩
  rw [g2, if_neg (by omega)]

/-- **C117, the property does not hold.**  A caller has read all of a day and saved its cursor.  Then the day is written
again, with other records and into as many blobs or fewer.  Whatever the new records are, the caller that goes on with its
cursor gets none of them, and is told of no error: it cannot know that the data is another. -/
theorem C117_run_again_fails
    (w : Job) (ls : List (List Piece)) (h : w.OK ls) (hb : PlainBase (w.base ls)) (hfmt : w.format ≠ "text".toList)
    (hday : ∀ rnd, cyclePath (readerDataset w.dataset w.partitions) rnd (midnight w.date)
      = cyclePath (readerDataset w.dataset w.partitions) rnd w.date)
    (d : Disk) (hd : Fresh (ls.map (filled w.date)) d)
    -- the runs before the sitting and after it; `r` and `r'` are those that came to their end
    (pre mid post : List (Run ρ)) (r r' : Run ρ) (hok : ∀ x ∈ pre ++ r :: (mid ++ r' :: post), x.OK w)
    (hord : (pre ++ r :: (mid ++ r' :: post)).Pairwise (fun a b => a.now.seconds < b.now.seconds))
    (hfin : r.Finished w) (hne : r.records.filter r.config.valid ≠ []) (hmid : ∀ x ∈ mid, ¬ x.Finished w)
    (hfin' : r'.Finished w) (hne' : r'.records.filter r'.config.valid ≠ []) (hpost : ∀ x ∈ post, ¬ x.Finished w)
    -- the disk at the sitting, and when the caller goes on
    (d1 d2 : Disk) (hd1 : afterRuns w d (pre ++ r :: mid) = .ok d1)
    (hd2 : afterRuns w d (pre ++ r :: (mid ++ r' :: post)) = .ok d2)
    (lib : Lib ρ) (hl : Faithful r.config.codec lib r.records) (ht : ∀ x ∈ r.records, lib.truthy x = true)
    (hl' : Faithful r'.config.codec lib r'.records) (ht' : ∀ x ∈ r'.records, lib.truthy x = true)
    (freshness : Str) (prefixes : List Str) (hallow : Reader.allowed prefixes w.dataset = true)
    -- the hash of a new name is not that of an old one, nor that of the empty text
    (hash : Str → Nat) (hi : ∀ i < r'.count, ∀ y,
      batchBlob w.dataset w.partitions (asAtName r'.now) w.date w.rnd w.format (r'.ids i) = .ok y → hash y ≠ hash [] ∧
      ∀ j < r.count, ∀ x, batchBlob w.dataset w.partitions (asAtName r.now) w.date w.rnd w.format (r.ids j) = .ok x →
        hash y ≠ hash x)
    (hle : r'.count ≤ r.count)
    (s : Sitting) (hs : (r.records.filter r.config.valid).length < s.take) (now : DateTime) (rnd : Str) :
    ∃ doc, sit hash lib (dayReader w freshness prefixes) d1 s none
        = .ok ((r.records.filter r.config.valid).map .row, some doc) ∧
      sitOut hash lib (dayReader w freshness prefixes) now rnd d2 (some doc) = .ok [] := by
  obtain ⟨content, old, new, doc, l1, l2, i1, -, g1, g2⟩ := again_core w ls h hb hfmt hday d hd pre mid post r r' hok hord hfin hne hmid hfin' hne' hpost d1 d2 hd1 hd2 lib hl ht hl' ht'
    freshness prefixes hallow hash hi s (by omega) now rnd
  refine ⟨doc, by rw [g1, List.take_of_length_le (by simp; omega)], ?_⟩
  rw [g2, if_pos (by omega), Cursor.passed_all content _ _ (by
    show (inOrder content old).length < _
    rw [i1, List.length_map]; exact hs), List.drop_of_length_le, List.flatMap_nil]
  rw [(sorted_perm strLe new).length_eq, (sorted_perm strLe old).length_eq]
  omega

/-! ### Concrete runs -/

/-- A run that writes the day of `run3` again. -/
def run5 : Run (Fin 10) := ⟨⟨2024, 3, 1, 13, 0, 0⟩, zConfig, [4, 5, 6], demoIds, 1000, .finalized⟩

/-- A run that writes it into nine blobs. -/
def run9 : Run (Fin 10) := ⟨⟨2024, 3, 1, 14, 0, 0⟩, zConfig, [4, 5, 6, 4, 5, 6, 4, 5, 6, 4, 5, 6, 4, 5, 6, 4, 5], demoIds, 1000, .finalized⟩

theorem again_ok (r : Run (Fin 10)) (hm : r ∈ [run5, run9]) : r.OK zJob := by
  have hc : ∀ r ∈ [run5, run9], r.now.valid = true ∧ r.count ≤ 9 := by decide +kernel
  have hi : ∀ r ∈ [run5, run9], r.ids = demoIds ∧ r.config = zConfig := by
    intro r hr
    simp only [List.mem_cons, List.not_mem_nil, or_false] at hr
    rcases hr with rfl | rfl <;> exact ⟨rfl, rfl⟩
  have hhex : ∀ n < 9, HexId (demoIds n) ∧ demoIds n ≠ [] := by unfold HexId; decide +kernel
  have hord : ∀ m < 9, ∀ n < m, (demoIds n).length = (demoIds m).length ∧ demoIds n < demoIds m := by decide +kernel
  obtain ⟨c1, c2⟩ := hc r hm
  obtain ⟨i1, i2⟩ := hi r hm
  refine ⟨c1, by rw [i2]; rfl, ?_, ?_⟩
  · intro n hn
    rw [i1]
    exact hhex n (by omega)
  · intro n m hnm hm'
    rw [i1]
    exact hord m (by omega) n hnm

/-- Non-vacuity of `C117_sittings_partial`: one record is taken, then another run starts and is stopped, then another record is
taken, and then the rest. -/
example : (afterRuns zJob demoStart [run1, run2, run3]).isOk ∧ (afterRuns zJob demoStart [run1, run2, run3, run4]).isOk ∧
    ∀ d0 d4, afterRuns zJob demoStart [run1, run2, run3] = .ok d0 → afterRuns zJob demoStart [run1, run2, run3, run4] = .ok d4 →
    ∃ doc rest, sitAll StreamStorage.properHash demoLib' (dayReader zJob [] ["tests/".toList])
        [(d0, ⟨⟨2024, 3, 1, 11, 45, 0⟩, [], 1⟩), (d4, ⟨⟨2024, 3, 1, 12, 45, 0⟩, [], 1⟩)] none = .ok ([[.row 1], [.row 2]], doc) ∧
      sitOut StreamStorage.properHash demoLib' (dayReader zJob [] ["tests/".toList]) ⟨2024, 3, 2, 0, 0, 0⟩ [] d4 doc = .ok rest ∧
      rest = [.row 3] := by
  refine ⟨by decide +kernel, by decide +kernel, ?_⟩
  intro d0 d4 h0 h4
  have hmem : ∀ post ∈ [[run4], [], [run4]], ∀ r' ∈ [run1, run2] ++ run3 :: post, r' ∈ [run1, run2, run3, run4] := by
    intro post hp r' hr'
    simp only [List.mem_cons, List.not_mem_nil, or_false] at hp
    rcases hp with rfl | rfl | rfl
    · exact hr'
    · exact List.mem_append_left [run4] hr'
    · exact hr'
  obtain ⟨got, doc, rest, k1, k2, k3, k4⟩ := C117_sittings_partial zJob demoFolders zJob_ok demo_base (by decide) (fun _ => rfl)
    demoStart demo_fresh [run1, run2] run3 ((ended_iff ⟨rfl, Or.inl (by decide)⟩).2 (by decide +kernel)) (by decide)
    [([], d0, ⟨⟨2024, 3, 1, 11, 45, 0⟩, [], 1⟩), ([run4], d4, ⟨⟨2024, 3, 1, 12, 45, 0⟩, [], 1⟩)] [run4] d4
    (fun post hp r' hr' => demo_run_ok r' (hmem post hp r' hr'))
    (by
      intro post hp
      simp only [List.map_cons, List.map_nil, List.mem_cons, List.not_mem_nil, or_false] at hp
      rcases hp with rfl | rfl | rfl <;> decide +kernel)
    (by
      intro post hp r' hr'
      simp only [List.map_cons, List.map_nil, List.mem_cons, List.not_mem_nil, or_false] at hp
      have : r' = run4 := by rcases hp with rfl | rfl | rfl <;> simpa using hr'
      rw [this, ended_iff ⟨rfl, Or.inl (by decide)⟩]
      decide +kernel)
    (by
      intro s hs
      simp only [List.mem_cons, List.not_mem_nil, or_false] at hs
      rcases hs with rfl | rfl
      · exact h0
      · exact h4)
    h4 demoLib' (demo_faithful _) (fun _ _ => rfl) [] ["tests/".toList] (by decide) StreamStorage.properHash
    (fun _ _ _ _ _ _ _ _ h => StreamStorage.properHash_inj h) ⟨2024, 3, 2, 0, 0, 0⟩ []
  have e : got = [[.row 1], [.row 2]] := k4
  subst e
  refine ⟨doc, rest, k1, k2, ?_⟩
  have : [Item.row 1, .row 2] ++ rest = [Item.row 1, .row 2] ++ [.row (3 : Fin 10)] := k3
  exact List.append_cancel_left this

/-- The hash of the name of a blob of `run5` or `run9` is not that of one of `run3`. -/
theorem again_hash (r : Run (Fin 10)) (hm : r ∈ [run5, run9]) (i : Nat) (hi : i < r.count) (y : Str)
    (hy : batchBlob zJob.dataset zJob.partitions (asAtName r.now) zJob.date zJob.rnd zJob.format (r.ids i) = .ok y) :
    StreamStorage.properHash y ≠ StreamStorage.properHash [] ∧ ∀ j < run3.count, ∀ x,
      batchBlob zJob.dataset zJob.partitions (asAtName run3.now) zJob.date zJob.rnd zJob.format (run3.ids j) = .ok x →
        StreamStorage.properHash y ≠ StreamStorage.properHash x := by
  have hc : ∀ r ∈ [run5, run9], r.count ≤ 9 := by decide +kernel
  have h3 : run3.count = 2 := by decide +kernel
  have all : ∀ r ∈ [run5, run9], ∀ i < 9, ∀ y ∈ (batchBlob zJob.dataset zJob.partitions (asAtName r.now) zJob.date zJob.rnd
      zJob.format (r.ids i)).toOption, y ≠ [] ∧ ∀ j < 2, ∀ x ∈ (batchBlob zJob.dataset zJob.partitions (asAtName run3.now)
        zJob.date zJob.rnd zJob.format (run3.ids j)).toOption, y ≠ x := by decide +kernel
  have hi9 := hc r hm
  obtain ⟨k1, k2⟩ := all r hm i (by omega) y (by rw [hy]; rfl)
  refine ⟨fun e => k1 (StreamStorage.properHash_inj e), ?_⟩
  intro j hj x hx e
  exact k2 j (by omega) x (by rw [hx]; rfl) (StreamStorage.properHash_inj e)

/-- Non-vacuity of `C117_run_again_fails`: the day holds 1, 2, 3; all are read; then it is written again with 4, 5, 6; and the
caller gets nothing. -/
example : (afterRuns zJob demoStart [run3, run4]).isOk ∧ (afterRuns zJob demoStart [run3, run4, run5]).isOk ∧
    ∀ d1 d2, afterRuns zJob demoStart [run3, run4] = .ok d1 → afterRuns zJob demoStart [run3, run4, run5] = .ok d2 →
    ∃ doc, sit StreamStorage.properHash demoLib' (dayReader zJob [] ["tests/".toList]) d1 ⟨⟨2024, 3, 1, 12, 45, 0⟩, [], 4⟩ none
        = .ok ([.row 1, .row 2, .row 3], some doc) ∧
      sitOut StreamStorage.properHash demoLib' (dayReader zJob [] ["tests/".toList]) ⟨2024, 3, 2, 0, 0, 0⟩ [] d2 (some doc) = .ok [] := by
  refine ⟨by decide +kernel, by decide +kernel, ?_⟩
  intro d1 d2 h1 h2
  exact C117_run_again_fails zJob demoFolders zJob_ok demo_base (by decide) (fun _ => rfl) demoStart demo_fresh [] [run4] [] run3 run5
    (by
      intro r hr
      simp only [List.cons_append, List.nil_append, List.mem_cons, List.not_mem_nil, or_false] at hr
      rcases hr with rfl | rfl | rfl
      · exact demo_run_ok _ (by simp)
      · exact demo_run_ok _ (by simp)
      · exact again_ok _ (by simp))
    (by decide +kernel) ((ended_iff ⟨rfl, Or.inl (by decide)⟩).2 (by decide +kernel)) (by decide)
    (by
      intro r hr
      rw [List.mem_singleton.1 hr, ended_iff ⟨rfl, Or.inl (by decide)⟩]
      decide +kernel)
    ((ended_iff ⟨rfl, Or.inl (by decide)⟩).2 (by decide +kernel)) (by decide) (by simp) d1 d2 h1 h2 demoLib' (demo_faithful _)
    (fun _ _ => rfl) (demo_faithful _) (fun _ _ => rfl) [] ["tests/".toList] (by decide) StreamStorage.properHash
    (again_hash run5 (by simp)) (by decide +kernel) ⟨⟨2024, 3, 1, 12, 45, 0⟩, [], 4⟩ (by decide) ⟨2024, 3, 2, 0, 0, 0⟩ []

/-- Non-vacuity of `C117_many_more_partial`: the day is written again into nine blobs. -/
example : (afterRuns zJob demoStart [run3]).isOk ∧ (afterRuns zJob demoStart [run3, run9]).isOk ∧
    ∀ d1 d2, afterRuns zJob demoStart [run3] = .ok d1 → afterRuns zJob demoStart [run3, run9] = .ok d2 →
    ∃ doc, sit StreamStorage.properHash demoLib' (dayReader zJob [] ["tests/".toList]) d1 ⟨⟨2024, 3, 1, 12, 45, 0⟩, [], 2⟩ none
        = .ok ([.row 1, .row 2], some doc) ∧
      sitOut StreamStorage.properHash demoLib' (dayReader zJob [] ["tests/".toList]) ⟨2024, 3, 2, 0, 0, 0⟩ [] d2 (some doc)
        = .error .indexError := by
  refine ⟨by decide +kernel, by decide +kernel, ?_⟩
  intro d1 d2 h1 h2
  exact C117_many_more_partial zJob demoFolders zJob_ok demo_base (by decide) (fun _ => rfl) demoStart demo_fresh [] [] [] run3 run9
    (by
      intro r hr
      simp only [List.nil_append, List.mem_cons, List.not_mem_nil, or_false] at hr
      rcases hr with rfl | rfl
      · exact demo_run_ok _ (by simp)
      · exact again_ok _ (by simp))
    (by decide +kernel) ((ended_iff ⟨rfl, Or.inl (by decide)⟩).2 (by decide +kernel)) (by decide) (by simp)
    ((ended_iff ⟨rfl, Or.inl (by decide)⟩).2 (by decide +kernel)) (by decide) (by simp) d1 d2 h1 h2 demoLib' (demo_faithful _)
    (fun _ _ => rfl) (demo_faithful _) (fun _ _ => rfl) [] ["tests/".toList] (by decide) StreamStorage.properHash
    (again_hash run9 (by simp)) (by decide +kernel) ⟨⟨2024, 3, 1, 12, 45, 0⟩, [], 2⟩ (by decide) ⟨2024, 3, 2, 0, 0, 0⟩ []

/-- A hash that is another for each text, and can be computed. -/
def textNumber (b : Str) : Nat := b.foldl (fun n c => 1114113 * n + c.toNat + 1) 0

/-- What a caller gets of a day that holds 1, 2, 3, and what it gets when the day has been written again with 4, 5, 6: with a
new reader, and when it goes on. -/
def readAndAgain (k : Nat) : Except Err (List (Item (Fin 10)) × List (Item (Fin 10)) × List (Item (Fin 10))) := do
  let d1 ← afterRuns zJob demoStart [run3]
  let d2 ← afterRuns zJob demoStart [run3, run5]
  let (first, doc) ← sit textNumber demoLib' (dayReader zJob [] ["tests/".toList]) d1 ⟨⟨2024, 3, 1, 12, 45, 0⟩, [], k⟩ none
  let all ← sitOut textNumber demoLib' (dayReader zJob [] ["tests/".toList]) ⟨2024, 3, 2, 0, 0, 0⟩ [] d2 none
  let onward ← sitOut textNumber demoLib' (dayReader zJob [] ["tests/".toList]) ⟨2024, 3, 2, 0, 0, 0⟩ [] d2 doc
  return (first, all, onward)

/-- **C117, the property does not hold.**  A caller that had left the first of the blobs behind gets a part of the new records,
without an error: here the last of the three, and neither of the others. -/
theorem C117_replaced_fails :
    (readAndAgain 3).toOption = some ([.row 1, .row 2, .row 3], [.row 4, .row 5, .row 6], [.row 6]) := by
  decide +kernel

end Mabel.History
