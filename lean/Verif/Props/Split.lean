import Verif.Lemmas.Split
import Verif.Props.Overlap
import Mathlib.Data.List.Sort
import Mathlib.Data.List.Flatten

/-!
# Jobs that are split over writers that share a frame: C99
-/

namespace Mabel.Split
open Mabel.Py Mabel.Paths Mabel.Naming Mabel.Spec Mabel.Listing
open Mabel.Disk hiding Bytes
open Mabel.History (Run on Day Daily folderOf Fresh Kept afterDayRuns afterRun blobsOf DaysOf rangeReader DayRead LastOf)
open Mabel.StreamStorage (share)
open Mabel.Cloud (DayMem range_open_mem)
open Mabel.EndToEnd (nameOf writtenBlobs)
open Mabel.Overlap (Taken Done)
open Mabel.Blobs (Lib Faithful delivered Item readBlob Names)
variable {ρ : Type}

/-- The latest run when one of those in the newest frame is complete. -/
theorem latest_shared {hs bs : List Batch} {n0 : DateTime} (hnew : ∀ b ∈ hs, b.now.seconds < n0.seconds)
    (hbs : ∀ b ∈ bs, b.now = n0 ∧ b.ignored = false) (hc : ∃ b ∈ bs, b.complete = true) (t : DateTime) :
    Latest (hs ++ bs) t ↔ t = n0 := by
  have hno : ¬ ∃ b' ∈ hs ++ bs, b'.now = n0 ∧ b'.ignored = true := by
    rintro ⟨b', hb', e1, e2⟩
    rcases List.mem_append.1 hb' with hb' | hb'
    · have := hnew b' hb'
      rw [e1] at this
      omega
    · rw [(hbs b' hb').2] at e2; cases e2
  obtain ⟨b, hb, hc⟩ := hc
  constructor
  · rintro ⟨⟨b', hb', e1, e2⟩, h2, h3⟩
    have := h3 b (by simp [hb]) hc (by rw [(hbs b hb).1]; exact hno)
    rw [(hbs b hb).1] at this
    rcases List.mem_append.1 hb' with hb' | hb'
    · have h4 := hnew b' hb'
      rw [e1] at h4
      omega
    · rw [← e1]; exact (hbs b' hb').1
  · rintro rfl
    refine ⟨⟨b, by simp [hb], (hbs b hb).1, hc⟩, hno, ?_⟩
    intro c hcm _ _
    rcases List.mem_append.1 hcm with hcm | hcm
    · exact Nat.le_of_lt (hnew c hcm)
    · rw [(hbs c hcm).1]

/-- A day whose history is the same, on another disk. -/
theorem day_same {w : Job} {ls : List (List Piece)} (hw : Daily w ls) {u : DateTime} (hu : Day u) {lib : Lib ρ} {d1 d' : Disk}
    {hs hs' : List Batch} (hv : ∀ b ∈ hs, b.now.valid = true) (hi : ∀ b ∈ hs, ∀ i ∈ b.ids, HexId i)
    (hv' : ∀ b ∈ hs', b.now.valid = true) (hi' : ∀ b ∈ hs', ∀ i ∈ b.ids, HexId i)
    (hh : Holds (on w u) hs d1.names ⟨[], folderOf ls u⟩) (hh' : Holds (on w u) hs' d'.names ⟨[], folderOf ls u⟩)
    (hsame : ∀ t i, (Latest hs' t ∧ ∃ b ∈ hs', b.now = t ∧ i ∈ b.ids) ↔ (Latest hs t ∧ ∃ b ∈ hs, b.now = t ∧ i ∈ b.ids))
    {rows : List ρ} {names : List Str} (h : DayRead w ls lib d1 u rows names) : DayMem w ls (diskBlobsAt d'.names) u names := by
  have hok := hw.ok u hu.valid
  obtain ⟨cl, h1, h2⟩ := h.listed
  obtain ⟨l1, k1, k2⟩ := cycle_history hok (hw.plain u hu) hv hi hh
  obtain ⟨l2, k3, k4⟩ := cycle_history hok (hw.plain u hu) hv' hi' hh'
  refine ⟨⟨l2, k3, fun x => ?_⟩, h.order, h.beneath, h.readable⟩
  have e : cl = l1 := Except.ok.inj (h1.symm.trans k1)
  rw [← h2.mem_iff, e, k2, k4]
  constructor
  · rintro ⟨t, hl, b, hb, hbt, i, hi, hx⟩
    obtain ⟨hl', b', hb', e', hi'⟩ := (hsame t i).1 ⟨hl, b, hb, hbt, hi⟩
    exact ⟨t, hl', b', hb', e', i, hi', by rw [e', ← hbt]; exact hx⟩
  · rintro ⟨t, hl, b, hb, hbt, i, hi, hx⟩
    obtain ⟨hl', b', hb', e', hi'⟩ := (hsame t i).2 ⟨hl, b, hb, hbt, hi⟩
    exact ⟨t, hl', b', hb', e', i, hi', by rw [e', ← hbt]; exact hx⟩

/-- A list in order, of things that are in another, is part of it. -/
theorem sublist_of_lt {a b : List Str} (ha : a.Pairwise (fun x y => x < y)) (hb : b.Pairwise (fun x y => strLe x y = true))
    (hsub : ∀ x ∈ a, x ∈ b) : a.Sublist b := by
  have : Std.Antisymm (fun x y : Str => strLe x y = true) := ⟨fun _ _ h1 h2 => strLe_antisymm h1 h2⟩
  refine List.sublist_of_subperm_of_pairwise (r := fun x y : Str => strLe x y = true) ?_ ?_ hb
  · exact List.subperm_of_subset (EndToEnd.nodup_of_lt ha) hsub
  · refine ha.imp (fun h => ?_)
    simp only [strLe, decide_eq_true_eq]
    exact List.le_of_lt h

/-- The day of the job, when every part has ended. -/
theorem day_split {w : Job} {ls : List (List Piece)} (hw : Daily w ls) (hfmt : w.format ≠ "text".toList) {t : DateTime} (hday : Day t)
    {n0 : DateTime} {hs bs : List Batch} (hv : ∀ b ∈ hs, b.now.valid = true) (hi : ∀ b ∈ hs, ∀ i ∈ b.ids, HexId i)
    (hnew : ∀ b ∈ hs, b.now.seconds < n0.seconds)
    (parts : List (Run ρ)) (hr : ∀ r ∈ parts, r.OK (on w t) ∧ r.now = n0) (hend : ∀ r ∈ parts, r.ending = .finalized)
    (hids : ∀ (i j : Nat) (r r' : Run ρ), i ≠ j → parts[i]? = some r → parts[j]? = some r' →
      ∀ p ∈ blobsOf r, ∀ p' ∈ blobsOf r', p.1 ≠ p'.1)
    (lib : Lib ρ) (hl : ∀ r ∈ parts, Faithful r.config.codec lib r.records)
    (htr : ∀ r ∈ parts, ∀ x ∈ r.records, lib.truthy x = true) {d' : Disk}
    (hbs : ∀ b ∈ bs, b.now = n0 ∧ b.ignored = false ∧ n0.valid = true ∧ ∀ id ∈ b.ids, HexId id)
    (hc : ∃ b ∈ bs, b.complete = true)
    (hmem : ∀ id, (∃ b ∈ bs, id ∈ b.ids) ↔ ∃ r ∈ parts, id ∈ (blobsOf r).map Prod.fst)
    (hread : ∀ r ∈ parts, ∀ p ∈ blobsOf r, read d' (nameOf (on w t) ls n0 p.1) = .ok p.2)
    (hh : Holds (on w t) (hs ++ bs) d'.names ⟨[], folderOf ls t⟩) :
    ∃ names X, DayMem w ls (diskBlobsAt d'.names) t names ∧
      names.flatMap (fun x => readBlob lib {} x (read d' x)) = X.map .row ∧ (names = [] ↔ X = []) ∧
      X.Perm (parts.flatMap (fun r => r.records.filter r.config.valid)) ∧
      ∀ r ∈ parts, (r.records.filter r.config.valid).Sublist X := by
  have hok := hw.ok t hday.valid
  have hn0 : n0.valid = true := by
    obtain ⟨b, hb, -⟩ := hc
    exact (hbs b hb).2.2.1
  let f : Str → List (Item ρ) := fun x => readBlob lib {} x (read d' x)
  let own : Run ρ → List Str := fun r => ((blobsOf r).map Prod.fst).map (nameOf (on w t) ls n0)
  let valid : Run ρ → List ρ := fun r => r.records.filter r.config.valid
  -- the names of a part
  have hown : ∀ r ∈ parts, (own r).flatMap f = (valid r).map .row ∧ (own r = [] ↔ valid r = []) := by
    intro r hrm
    obtain ⟨hrr, hrn⟩ := hr r hrm
    have hst : ∀ p ∈ ((blobsOf r).map Prod.fst).zip (writtenBlobs r.config (r.records.map .append)), ∀ x,
        batchBlob (on w t).dataset (on w t).partitions (asAtName n0) (on w t).date (on w t).rnd (on w t).format p.1
          = .ok x → read d' x = .ok p.2 := by
      intro p hp x hx
      rw [batchBlob_eq hok hn0] at hx
      cases hx
      refine hread r hrm p ?_
      rw [← History.blobsOf_snd (hend r hrm)] at hp
      have : ((blobsOf r).map Prod.fst).zip ((blobsOf r).map Prod.snd) = blobsOf r := by
        rw [List.zip_map']
        exact List.map_id' _
      rw [this] at hp
      exact hp
    obtain ⟨hrows, hne⟩ := EndToEnd.day_rows (on w t) ls hok hfmt r.config hrr.format lib
      (r.records.map .append) ((hl r hrm).mono (fun x hx => (List.mem_filter.1 (by rwa [History.accepted_appends] at hx)).1))
      (fun x hx => htr r hrm x (List.mem_filter.1 (by rwa [History.accepted_appends] at hx)).1)
      ⟨n0, (blobsOf r).map Prod.fst, true, false⟩ (by rw [← History.blobsOf_snd (hend r hrm)]; simp)
      (by
        intro i hi
        obtain ⟨p, hp, rfl⟩ := List.mem_map.1 hi
        exact (hrr.id p hp).2)
      hn0
      (by
        intro i hi
        obtain ⟨p, hp, rfl⟩ := List.mem_map.1 hi
        exact (hrr.id p hp).1) (read d') hst
    rw [History.accepted_appends] at hrows hne
    refine ⟨hrows, ?_⟩
    constructor
    · intro h
      by_contra hc
      exact hne hc (by simpa [own] using h)
    · intro h
      show ((blobsOf r).map Prod.fst).map (nameOf (on w t) ls n0) = []
      rw [History.blobsOf_none (hend r hrm) h]
      rfl
  have hownlt : ∀ r ∈ parts, (own r).Pairwise (fun x y => x < y) := by
    intro r hrm
    exact EndToEnd.nameOf_lt (hr r hrm).1.pairwise
  have hinj : ∀ a b, nameOf (on w t) ls n0 a = nameOf (on w t) ls n0 b → a = b := by
    intro a b e
    unfold nameOf Framed.path at e
    simp only at e
    have e := List.append_cancel_left e
    exact List.append_cancel_right (List.cons.inj e).2
  have hnd : (parts.flatMap own).Nodup := by
    rw [List.nodup_flatMap]
    refine ⟨fun r hrm => EndToEnd.nodup_of_lt (hownlt r hrm), ?_⟩
    rw [List.pairwise_iff_getElem]
    intro i j hi hj hij
    simp only [Function.onFun, List.disjoint_left]
    intro x hx hx'
    obtain ⟨a, ha, rfl⟩ := List.mem_map.1 hx
    obtain ⟨b, hb, e⟩ := List.mem_map.1 hx'
    obtain ⟨p, hp, rfl⟩ := List.mem_map.1 ha
    obtain ⟨p', hp', rfl⟩ := List.mem_map.1 hb
    exact hids i j _ _ (by omega) (List.getElem?_eq_getElem hi) (List.getElem?_eq_getElem hj) p hp p' hp' (hinj _ _ e).symm
  let names := sorted strLe (parts.flatMap own)
  have hpw : names.Pairwise (fun x y => strLe x y = true) := sorted_pairwise strLe_preorder _
  have hperm : names.Perm (parts.flatMap own) := sorted_perm _ _
  have hlt : names.Pairwise (fun x y => x < y) := by
    have h2 : names.Nodup := hperm.nodup_iff.2 hnd
    refine (hpw.and h2).imp ?_
    rintro x y ⟨h1, h3⟩
    simp only [strLe, decide_eq_true_eq] at h1
    by_contra hc
    exact h3 (List.le_antisymm h1 (List.not_lt.1 hc))
  have hsubl : ∀ r ∈ parts, (own r).Sublist names := by
    intro r hrm
    refine sublist_of_lt (hownlt r hrm) hpw ?_
    intro x hx
    exact hperm.mem_iff.2 (List.mem_flatMap.2 ⟨r, hrm, hx⟩)
  -- the records
  have hrow : ∀ x ∈ parts.flatMap own, ∃ g : List ρ, f x = g.map .row := by
    intro x hx
    obtain ⟨r, hrm, hx⟩ := List.mem_flatMap.1 hx
    have h1 := (hown r hrm).1
    have : ∀ y ∈ f x, ∃ z, y = Item.row z := by
      intro y hy
      have : y ∈ (valid r).map Item.row := by rw [← h1]; exact List.mem_flatMap.2 ⟨x, hx, hy⟩
      obtain ⟨z, -, rfl⟩ := List.mem_map.1 this
      exact ⟨z, rfl⟩
    generalize f x = l at this
    induction l with
    | nil => exact ⟨[], rfl⟩
    | cons y l ih =>
      obtain ⟨g, hg⟩ := ih (fun y hy => this y (List.mem_cons_of_mem _ hy))
      obtain ⟨z, rfl⟩ := this y List.mem_cons_self
      exact ⟨z :: g, by rw [hg]; rfl⟩
  have hX : ∃ X : List ρ, names.flatMap f = X.map .row := by
    have : ∀ x ∈ names, ∃ g : List ρ, f x = g.map .row := fun x hx => hrow x (hperm.mem_iff.1 hx)
    generalize names = l at this
    induction l with
    | nil => exact ⟨[], rfl⟩
    | cons x l ih =>
      obtain ⟨g, hg⟩ := ih (fun y hy => this y (List.mem_cons_of_mem _ hy))
      obtain ⟨z, hz⟩ := this x List.mem_cons_self
      exact ⟨z ++ g, by rw [List.flatMap_cons, hg, hz, List.map_append]⟩
  obtain ⟨X, hX⟩ := hX
  have hrowinj : Function.Injective (Item.row : ρ → Item ρ) := fun a b e => by cases e; rfl
  have hall : (parts.flatMap own).flatMap f = (parts.flatMap valid).map .row := by
    rw [List.flatMap_assoc, List.map_flatMap]
    apply List.flatMap_congr
    intro r hrm
    exact (hown r hrm).1
  have hXperm : X.Perm (parts.flatMap valid) := by
    rw [← List.map_perm_map_iff hrowinj, ← hX, ← hall]
    exact hperm.flatMap_right f
  refine ⟨names, X, ?_, hX, ?_, hXperm, ?_⟩
  · obtain ⟨l, k1, k2⟩ := cycle_history hok (hw.plain t hday) (hs := hs ++ bs)
      (by
        intro b hb
        rcases List.mem_append.1 hb with hb | hb
        · exact hv b hb
        · rw [(hbs b hb).1]; exact hn0)
      (by
        intro b hb
        rcases List.mem_append.1 hb with hb | hb
        · exact hi b hb
        · exact (hbs b hb).2.2.2) hh
    refine ⟨⟨l, k1, ?_⟩, hlt, ?_, ?_⟩
    · intro x
      rw [k2, hperm.mem_iff, List.mem_flatMap]
      have hlat := latest_shared hnew (fun b hb => ⟨(hbs b hb).1, (hbs b hb).2.1⟩) hc
      constructor
      · rintro ⟨u, hu, b, hb, hbu, i, hib, hx⟩
        have hu := (hlat u).1 hu
        subst hu
        rw [hbu, batchBlob_eq hok hn0] at hx
        rcases List.mem_append.1 hb with hb | hb
        · have := hnew b hb
          rw [hbu] at this
          omega
        · obtain ⟨r, hrm, hir⟩ := (hmem i).1 ⟨b, hb, hib⟩
          exact ⟨r, hrm, List.mem_map.2 ⟨i, hir, Except.ok.inj hx⟩⟩
      · rintro ⟨r, hrm, hx⟩
        obtain ⟨i, hir, rfl⟩ := List.mem_map.1 hx
        obtain ⟨b, hb, hib⟩ := (hmem i).2 ⟨r, hrm, hir⟩
        refine ⟨n0, (hlat n0).2 rfl, b, List.mem_append_right _ hb, (hbs b hb).1, i, hib, ?_⟩
        rw [(hbs b hb).1]
        exact batchBlob_eq hok hn0 i
    · intro x hx
      obtain ⟨r, hrm, hx⟩ := List.mem_flatMap.1 (hperm.mem_iff.1 hx)
      obtain ⟨i, -, rfl⟩ := List.mem_map.1 hx
      exact ⟨asAtName n0 ++ '/' :: (i ++ extension w.format), by simp [nameOf, Framed.path, on]⟩
    · intro x hx
      obtain ⟨r, hrm, hx⟩ := List.mem_flatMap.1 (hperm.mem_iff.1 hx)
      obtain ⟨i, -, rfl⟩ := List.mem_map.1 hx
      exact C22_blobs_readable _ _ _ _
  · constructor
    · intro h
      rw [h] at hX
      exact List.map_eq_nil_iff.1 hX.symm
    · intro h
      rw [h] at hXperm
      have h1 := List.flatMap_eq_nil_iff.1 hXperm.nil_eq.symm
      have h2 : parts.flatMap own = [] := by
        rw [List.flatMap_eq_nil_iff]
        intro r hrm
        exact (hown r hrm).2.2 (h1 r hrm)
      have h3 : names.Perm [] := by rw [← h2]; exact hperm
      exact h3.eq_nil
  · intro r hrm
    have h1 := (hsubl r hrm).flatMap f
    rw [(hown r hrm).1, hX] at h1
    obtain ⟨l, h2, h3⟩ := List.sublist_map_iff.1 h1
    have h4 : r.records.filter r.config.valid = l := List.map_injective_iff.2 hrowinj h3
    rw [h4]
    exact h2

/-- **C99.**  A job for a day that is split over several batch writers: they are given the same frame, newer than that of
any run for the day before it (what was stored before, by runs that may have died, is on the disk).  Their steps on the
disk are taken in any order in which each takes its own in order.  No step fails; and when every part has ended, a
reader of a range of days delivers for the day of the job each record that was valid for any of the parts, once; the
records of each part in the order they were appended to it; and for the other days what it delivered before.  As long as
no part is done, it delivers for every day what it delivered before.  What is missing: that it does so until the last
part has ended, and if a part reports a failure; both are false (`C99_first_marks_fails`, `C99_failed_part_fails`).  That a writer that is given the frame of another one uses the
same folder is `C83_split_job`. -/
theorem C99_split_job_partial
    -- the dataset, and the format
    (w : Job) (ls : List (List Piece)) (hw : Daily w ls) (hfmt : w.format ≠ "text".toList)
    -- the reader
    (first last : DateTime) (hf : Day first) (hl : Day last) (hle : first.seconds ≤ last.seconds)
    (days : List DateTime) (hdays : DaysOf first last days)
    -- the runs before
    (runs : List (DateTime × Run ρ)) (hok : ∀ p ∈ runs, Day p.1 ∧ p.2.OK (on w p.1))
    (hord : runs.Pairwise (fun a b => a.1 = b.1 → a.2.now.seconds < b.2.now.seconds))
    -- the parts of the job, the day they are for and the time of their frame
    (t n0 : DateTime) (ht : Day t) (parts : List (Run ρ)) (hparts : ∀ r ∈ parts, r.OK (on w t) ∧ r.now = n0)
    (hlater : ∀ p ∈ runs, p.1 = t → p.2.now.seconds < n0.seconds)
    -- no two of them give a blob the same name
    (hids : ∀ (i j : Nat) (r r' : Run ρ), i ≠ j → parts[i]? = some r → parts[j]? = some r' →
      ∀ p ∈ blobsOf r, ∀ p' ∈ blobsOf r', p.1 ≠ p'.1)
    -- the disk before: nothing in the folders of these days
    (d : Disk) (hd : ∀ u, (u ∈ days ∨ u = t ∨ ∃ p ∈ runs, p.1 = u) → Fresh (folderOf ls u) d)
    -- the libraries; no record is empty (see C70)
    (lib : Lib ρ) (hlib : ∀ p ∈ runs, Faithful p.2.config.codec lib p.2.records)
    (htr : ∀ p ∈ runs, ∀ x ∈ p.2.records, lib.truthy x = true)
    (hlib' : ∀ r ∈ parts, Faithful r.config.codec lib r.records) (htr' : ∀ r ∈ parts, ∀ x ∈ r.records, lib.truthy x = true)
    -- the steps of the parts, in whatever order
    (steps : List (Nat × Op)) (hsteps : Taken w (parts.map (fun r => (t, r))) steps)
    (now : DateTime) (rnd : Str) (prefixes : List Str) (hallow : Reader.allowed prefixes w.dataset = true)
    (hash : Str → Nat) :
    ∃ d1 d', afterDayRuns w d runs = .ok d1 ∧ exec d1 (steps.map (·.2)) = .ok d' ∧
      -- when every part has ended with a finalize, and at least one has something to store (or is to be marked even if not)
      ((∀ (i : Nat) (r : Run ρ), parts[i]? = some r → r.ending = .finalized ∧ r.ops (on w t) = .ok (share steps i)) → (∃ r ∈ parts, r.Marks) →
        ∀ rows : DateTime → List ρ, (∀ u ∈ days, u ≠ t → LastOf w runs u (rows u)) →
        ∃ X : List ρ, X.Perm (parts.flatMap (fun r => r.records.filter r.config.valid)) ∧
          (∀ r ∈ parts, (r.records.filter r.config.valid).Sublist X) ∧
          ((days.flatMap (fun u => if u = t then X else rows u)) ≠ [] →
            ∃ l, Reader.openReader (rangeReader w first last prefixes) now rnd (diskBlobsAt d'.names) = .ok (0, l) ∧
              delivered hash lib {} (read d') l = (days.flatMap (fun u => if u = t then X else rows u)).map .row) ∧
          ((days.flatMap (fun u => if u = t then X else rows u)) = [] →
            Reader.openReader (rangeReader w first last prefixes) now rnd (diskBlobsAt d'.names) = .error .dataNotFound)) ∧
      -- as long as none is done
      ((∀ i, ¬ Done w (parts.map (fun r => (t, r))) steps i) →
        ∀ rows : DateTime → List ρ, (∀ u ∈ days, LastOf w runs u (rows u)) →
          (days.flatMap rows ≠ [] →
            ∃ l, Reader.openReader (rangeReader w first last prefixes) now rnd (diskBlobsAt d'.names) = .ok (0, l) ∧
              delivered hash lib {} (read d') l = (days.flatMap rows).map .row) ∧
          (days.flatMap rows = [] →
            Reader.openReader (rangeReader w first last prefixes) now rnd (diskBlobsAt d'.names) = .error .dataNotFound)) := by
  let S : DateTime → Prop := fun u => u ∈ days ∨ u = t ∨ ∃ p ∈ runs, p.1 = u
  have hS : ∀ u, S u → Day u := by
    rintro u (h | rfl | ⟨p, hp, rfl⟩)
    · exact ((hdays.mem u).1 h).1
    · exact ht
    · exact (hok p hp).1
  have hr : ∀ p ∈ runs, S p.1 ∧ p.2.OK (on w p.1) := fun p hp => ⟨Or.inr (Or.inr ⟨p, hp, rfl⟩), (hok p hp).2⟩
  have hSt : S t := Or.inr (Or.inl rfl)
  have hk0 : Kept w ls S (fun _ => []) d :=
    ⟨by simp, by simp, fun t ht => (hd t ht).holds _, fun t ht => (hd t ht).tidy⟩
  obtain ⟨H, d1, he1, g1, hk, -⟩ := History.all_day_runs hw hS runs hr hord _ d hk0 (by simp)
  have hnew : ∀ b ∈ H t, b.now.seconds < n0.seconds := by
    intro b hb
    obtain ⟨hs', k1, k2⟩ := g1 t hSt
    rw [k1, List.nil_append] at hb
    obtain ⟨-, p, hp, k3, k4, -⟩ := k2 b hb
    rw [k4]
    exact hlater p hp k3
  obtain ⟨bs, d', he2, hbs, hholds, hold, hdone, hfull⟩ := parts_run hw hS hk hSt parts hparts hnew hids steps hsteps
  -- a day for which nothing changes
  have hother : ∀ (rows : DateTime → List ρ) u, S u → LastOf w runs u (rows u) →
      (u = t → ∀ b ∈ bs, b.complete = false) →
      ∃ names, DayMem w ls (diskBlobsAt d'.names) u names ∧ (names = [] ↔ rows u = []) ∧
        names.flatMap (fun x => readBlob lib {} x (read d' x)) = (rows u).map .row := by
    intro rows u hu hlast hno
    obtain ⟨names, hn, hord'⟩ : ∃ names, DayRead w ls lib d1 u (rows u) names ∧
        ∀ x ∈ names, ∃ bytes, read d1 x = .ok bytes := by
      rcases hlast with ⟨pre, r, post, rfl, hfin, hpost, e⟩ | ⟨hnone, e⟩
      · obtain ⟨k1, k2⟩ := History.day_read_of hw hfmt hS pre post u r hr hord d hd lib hlib htr he1 hfin
        refine ⟨_, by rw [e]; exact k2 hpost, ?_⟩
        intro x hx
        obtain ⟨i, hi, rfl⟩ := List.mem_map.1 hx
        obtain ⟨p, hp, rfl⟩ := List.mem_map.1 hi
        exact ⟨p.2, k1 p hp⟩
      · exact ⟨[], by rw [e]; exact History.day_none hw hS runs hr hord d hd lib he1 hu hnone, by simp⟩
    refine ⟨names, ?_, hn.empty, ?_⟩
    · by_cases hut : u = t
      · subst hut
        have := hholds u hu
        rw [if_pos rfl] at this
        refine day_same hw (hS u hu) (hk.valid u hu) (hk.hex u hu) ?_ ?_ (hk.holds u hu) this ?_ hn
        · intro b hb
          rcases List.mem_append.1 hb with hb | hb
          · exact hk.valid u hu b hb
          · rw [(hbs b hb).1]; exact (hbs b hb).2.2.1
        · intro b hb
          rcases List.mem_append.1 hb with hb | hb
          · exact hk.hex u hu b hb
          · exact (hbs b hb).2.2.2
        · intro s i
          rw [History.latest_unfinisheds (fun b hb => ⟨hno rfl b hb, (hbs b hb).2.1⟩)]
          refine and_congr_right (fun hlat => ?_)
          constructor
          · rintro ⟨b, hb, e, hi⟩
            rcases List.mem_append.1 hb with hb | hb
            · exact ⟨b, hb, e, hi⟩
            · obtain ⟨b', hb', e', -⟩ := hlat.complete
              have := hnew b' hb'
              rw [e', ← e, (hbs b hb).1] at this
              omega
          · rintro ⟨b, hb, e, hi⟩
            exact ⟨b, List.mem_append_left _ hb, e, hi⟩
      · have := hholds u hu
        rw [if_neg hut] at this
        exact day_same hw (hS u hu) (hk.valid u hu) (hk.hex u hu) (hk.valid u hu) (hk.hex u hu) (hk.holds u hu) this
          (fun _ _ => Iff.rfl) hn
    · rw [← hn.delivers]
      apply List.flatMap_congr
      intro x hx
      obtain ⟨bytes, hx⟩ := hord' x hx
      rw [hx, hold x bytes hx]
  -- the range
  have hrange : ∀ all : DateTime → List ρ, (∀ u ∈ days, ∃ names, DayMem w ls (diskBlobsAt d'.names) u names ∧ (names = [] ↔ all u = []) ∧
        names.flatMap (fun x => readBlob lib {} x (read d' x)) = (all u).map .row) →
      (days.flatMap all ≠ [] →
        ∃ l, Reader.openReader (rangeReader w first last prefixes) now rnd (diskBlobsAt d'.names) = .ok (0, l) ∧
          delivered hash lib {} (read d') l = (days.flatMap all).map .row) ∧
      (days.flatMap all = [] →
        Reader.openReader (rangeReader w first last prefixes) now rnd (diskBlobsAt d'.names) = .error .dataNotFound) := by
    intro all h
    have h : ∀ u, ∃ names, u ∈ days → DayMem w ls (diskBlobsAt d'.names) u names ∧ (names = [] ↔ all u = []) ∧
        names.flatMap (fun x => readBlob lib {} x (read d' x)) = (all u).map .row := by
      intro u
      by_cases hu : u ∈ days
      · obtain ⟨names, hn⟩ := h u hu
        exact ⟨names, fun _ => hn⟩
      · exact ⟨[], fun h => absurd h hu⟩
    choose names hnames using h
    obtain ⟨l, hopen, hdel⟩ := range_open_mem (ρ := ρ) hw hf hl hle hdays (diskBlobsAt d'.names) names
      (fun t h => (hnames t h).1) now rnd prefixes hallow
    have hiff : days.flatMap names = [] ↔ days.flatMap all = [] := by
      rw [List.flatMap_eq_nil_iff, List.flatMap_eq_nil_iff]
      exact forall₂_congr (fun u hu => (hnames u hu).2.1)
    constructor
    · intro hne
      refine ⟨l, by rw [hopen, if_neg (fun e => hne (hiff.1 e))], ?_⟩
      rw [hdel, List.map_flatMap]
      apply List.flatMap_congr
      intro u hu
      exact (hnames u hu).2.2
    · intro he
      rw [hopen, if_pos (hiff.2 he)]
  refine ⟨d1, d', he1, he2, ?_, ?_⟩
  · intro hall hmarks rows hrows
    obtain ⟨hmem, hread⟩ := hfull hall
    have hc : ∃ b ∈ bs, b.complete = true := by
      obtain ⟨r, hrm, hm⟩ := hmarks
      obtain ⟨i, hi⟩ := List.mem_iff_getElem?.1 hrm
      exact hdone.2 ⟨i, (t, r), by rw [List.getElem?_map, hi]; rfl, hm, (hall i r hi).2⟩
    have hend : ∀ r ∈ parts, r.ending = .finalized := by
      intro r hrm
      obtain ⟨i, hi⟩ := List.mem_iff_getElem?.1 hrm
      exact (hall i r hi).1
    have hht := hholds t hSt
    rw [if_pos rfl] at hht
    obtain ⟨names, X, k1, k2, k3, k4, k5⟩ := day_split hw hfmt ht (hk.valid t hSt) (hk.hex t hSt) hnew parts hparts hend hids lib hlib'
      htr' hbs hc hmem hread hht
    refine ⟨X, k4, k5, ?_⟩
    refine hrange (fun u => if u = t then X else rows u) ?_
    intro u hu
    by_cases hut : u = t
    · subst hut
      simp only [if_true]
      exact ⟨names, k1, k3, k2⟩
    · simp only [if_neg hut]
      exact hother rows u (Or.inl hu) (hrows u hu hut) (fun e => absurd e hut)
  · intro hnone rows hrows
    refine hrange rows ?_
    intro u hu
    refine hother rows u (Or.inl hu) (hrows u hu) ?_
    intro _ b hb
    cases hcb : b.complete with
    | false => rfl
    | true =>
      obtain ⟨i, hi⟩ := hdone.1 ⟨b, hb, hcb⟩
      exact absurd hi (hnone i)

/-! ## A concrete case -/

open Mabel.History (run1 run3 feb28 feb29 mar1 feb28_day mar1_day three_days daily demoStart demo_day_fresh demo_on demo_run_ok ended_iff)
open Mabel.EndToEnd (zJob zConfig)
open Mabel.Overlap (demoOps demo_ops share_append share_map)

/-- A second part of the job of which `run3` is the first. -/
def part2 : Run (Fin 10) := ⟨run3.now, zConfig, [4, 7, 5], fun n => 'b' :: History.demoIds n, 1000, .finalized⟩

theorem part2_ok : part2.OK (on zJob mar1) := by
  refine ⟨by decide +kernel, rfl, ?_, ?_⟩
  · have : ∀ n < part2.count, HexId (part2.ids n) ∧ part2.ids n ≠ [] := by
      unfold HexId; decide +kernel
    exact this
  · intro n m hnm hm
    have : part2.count = 1 := by decide +kernel
    omega

def demoParts : List (Run (Fin 10)) := [run3, part2]

/-- The second begins and ends while the first is under way. -/
def demoSteps : List (Nat × Op) :=
  ((demoOps run3).take 20).map (fun o => (0, o)) ++ ((demoOps part2).map (fun o => (1, o)) ++
    ((demoOps run3).drop 20).map (fun o => (0, o)))

theorem demo_share : share demoSteps 0 = demoOps run3 ∧ share demoSteps 1 = demoOps part2 := by
  constructor <;> (rw [demoSteps, share_append, share_append, share_map, share_map, share_map]; simp)

theorem demo_run3 : run3.ops (on zJob mar1) = .ok (demoOps run3) := demo_ops (by decide +kernel)
theorem demo_part2 : part2.ops (on zJob mar1) = .ok (demoOps part2) := demo_ops (by decide +kernel)

theorem demo_all (i : Nat) (r : Run (Fin 10)) (h : demoParts[i]? = some r) :
    r.ending = .finalized ∧ r.ops (on zJob mar1) = .ok (share demoSteps i) := by
  match i, h with
  | 0, h => cases h; rw [demo_share.1]; exact ⟨rfl, demo_run3⟩
  | 1, h => cases h; rw [demo_share.2]; exact ⟨rfl, demo_part2⟩

theorem demo_taken : Taken zJob (demoParts.map (fun r => (mar1, r))) demoSteps := by
  refine ⟨?_, ?_⟩
  · intro i p hp
    obtain ⟨e1, e2⟩ := runs_get hp
    rw [e1]
    exact ⟨_, (demo_all i p.2 e2).2, List.prefix_refl _⟩
  · intro x hx
    simp only [demoSteps, List.mem_append, List.mem_map] at hx
    show x.1 < 2
    rcases hx with ⟨o, -, rfl⟩ | ⟨o, -, rfl⟩ | ⟨o, -, rfl⟩ <;> simp

theorem demo_ids (i j : Nat) (r r' : Run (Fin 10)) (hij : i ≠ j) (hi : demoParts[i]? = some r) (hj : demoParts[j]? = some r') :
    ∀ p ∈ blobsOf r, ∀ p' ∈ blobsOf r', p.1 ≠ p'.1 := by
  have h1 : ∀ p ∈ blobsOf run3, ∀ p' ∈ blobsOf part2, p.1 ≠ p'.1 := by decide +kernel
  match i, j, hi, hj with
  | 0, 0, _, _ => exact absurd rfl hij
  | 0, 1, hi, hj => cases hi; cases hj; exact h1
  | 1, 0, hi, hj => cases hi; cases hj; exact fun p hp p' hp' e => h1 p' hp' p hp e.symm
  | 1, 1, _, _ => exact absurd rfl hij

theorem demo_parts_ok : ∀ r ∈ demoParts, r.OK (on zJob mar1) ∧ r.now = run3.now := by
  intro r hr
  simp only [demoParts, List.mem_cons, List.not_mem_nil, or_false] at hr
  rcases hr with rfl | rfl
  · exact ⟨demo_on _ <| demo_run_ok run3 (by simp), rfl⟩
  · exact ⟨part2_ok, rfl⟩

theorem demo_fresh : ∀ u, (u ∈ [feb28, feb29, mar1] ∨ u = mar1 ∨ ∃ p ∈ [(feb28, run1)], p.1 = u) →
    Fresh (folderOf demoFolders u) demoStart := by
  rintro u (hu | rfl | ⟨p, hp, rfl⟩)
  · exact demo_day_fresh hu
  · exact demo_day_fresh (by simp)
  · rw [List.mem_singleton.1 hp]; exact demo_day_fresh (by simp)

/-- Non-vacuity: a run for the 28th of February, and a job for the first of March in two parts, the second of which begins
and ends while the first is under way. -/
example : ∃ d1 d' X l, afterDayRuns zJob demoStart [(feb28, run1)] = .ok d1 ∧ exec d1 (demoSteps.map (·.2)) = .ok d' ∧
    X.Perm [1, 2, 3, 4, 5] ∧ [1, 2, 3].Sublist X ∧ [4, 5].Sublist X ∧
    Reader.openReader (rangeReader zJob feb28 mar1 ["tests/".toList]) ⟨2024, 5, 5, 0, 0, 0⟩ [] (diskBlobsAt d'.names) = .ok (0, l) ∧
    delivered (fun _ => 0) Mabel.Blobs.demoLib' {} (read d') l = .row 4 :: X.map .row := by
  obtain ⟨d1, d', h1, h2, h3, -⟩ := C99_split_job_partial zJob demoFolders daily (by decide) feb28 mar1 feb28_day mar1_day (by decide +kernel)
    [feb28, feb29, mar1] three_days [(feb28, run1)]
    (by
      intro p hp
      rw [List.mem_singleton.1 hp]
      exact ⟨feb28_day, demo_on _ <| demo_run_ok run1 (by simp)⟩) (by simp)
    mar1 run3.now mar1_day demoParts demo_parts_ok
    (by
      intro p hp e
      rw [List.mem_singleton.1 hp] at e
      exact absurd e (by decide +kernel)) demo_ids demoStart demo_fresh Mabel.Blobs.demoLib'
    (by
      intro p hp
      rw [List.mem_singleton.1 hp]
      exact Mabel.Blobs.demo_faithful _)
    (fun _ _ _ _ => rfl)
    (by
      intro p hp
      simp only [demoParts, List.mem_cons, List.not_mem_nil, or_false] at hp
      rcases hp with rfl | rfl <;> exact Mabel.Blobs.demo_faithful _)
    (fun _ _ _ _ => rfl) demoSteps demo_taken ⟨2024, 5, 5, 0, 0, 0⟩ [] ["tests/".toList] (by decide) (fun _ => 0)
  obtain ⟨X, k1, k2, k3, -⟩ := h3 demo_all ⟨run3, by simp [demoParts], rfl, Or.inl (by decide)⟩ (fun u => if u = feb28 then [4] else []) (by
    intro u hu hne
    simp only [List.mem_cons, List.not_mem_nil, or_false] at hu
    rcases hu with rfl | rfl | rfl
    · exact Or.inl ⟨[], run1, [], rfl, (ended_iff ⟨rfl, Or.inl (by decide)⟩).2 (by decide +kernel), by simp, by decide⟩
    · refine Or.inr ⟨?_, by rw [if_neg (by decide +kernel)]⟩
      intro p hp e
      rw [List.mem_singleton.1 hp] at e
      exact absurd e (by decide +kernel)
    · exact absurd rfl hne)
  have e1 : ([feb28, feb29, mar1].flatMap (fun u => if u = mar1 then X else if u = feb28 then [4] else [])) = 4 :: X := by
    have n1 : feb28 ≠ mar1 := by decide +kernel
    have n2 : feb29 ≠ mar1 := by decide +kernel
    have n3 : feb29 ≠ feb28 := by decide +kernel
    simp [n1, n2, n3]
  rw [e1] at k3
  obtain ⟨l, k4, k5⟩ := k3 (by simp)
  exact ⟨d1, d', X, l, h1, h2, k1, k2 run3 (by simp [demoParts]), k2 part2 (by simp [demoParts]), k4, k5⟩

/-! ## What does not hold -/

/-- The steps when the second part has ended and the first has died in the middle of its first blob. -/
def earlySteps : List (Nat × Op) := (demoOps part2).map (fun o => (1, o)) ++ ((demoOps run3).take 10).map (fun o => (0, o))

/-- **The first part that ends marks the frame as complete for all of them**: the other part of the job has stored half of its first
blob when it dies (or when the reader comes), and is not done; the reader delivers the record that half holds with those of
the part that has ended, and nothing tells it that the rest is missing. -/
theorem C99_first_marks_fails :
    Taken zJob (demoParts.map (fun r => (mar1, r))) earlySteps ∧
    ¬ Done zJob (demoParts.map (fun r => (mar1, r))) earlySteps 0 ∧
    ∃ d' l, exec demoStart (earlySteps.map (·.2)) = .ok d' ∧
      Reader.openReader (rangeReader zJob feb28 mar1 ["tests/".toList]) ⟨2024, 5, 5, 0, 0, 0⟩ [] (diskBlobsAt d'.names) = .ok (0, l) ∧
      delivered (fun _ => 0) Mabel.Blobs.demoLib' {} (read d') l = [.row 1, .row 4, .row 5] := by
  have hs : share earlySteps 0 = (demoOps run3).take 10 ∧ share earlySteps 1 = demoOps part2 := by
    constructor <;> (rw [earlySteps, share_append, share_map, share_map]; simp)
  refine ⟨⟨?_, ?_⟩, ?_, ?_⟩
  · intro i p hp
    obtain ⟨e1, e2⟩ := runs_get hp
    rw [e1]
    match i, e2 with
    | 0, e2 =>
      have e2 := Option.some.inj e2
      rw [← e2, hs.1]
      exact ⟨_, demo_run3, List.take_prefix _ _⟩
    | 1, e2 =>
      have e2 := Option.some.inj e2
      rw [← e2, hs.2]
      exact ⟨_, demo_part2, List.prefix_refl _⟩
  · intro x hx
    simp only [earlySteps, List.mem_append, List.mem_map] at hx
    show x.1 < 2
    rcases hx with ⟨o, -, rfl⟩ | ⟨o, -, rfl⟩ <;> simp
  · rintro ⟨p, hp, -, h⟩
    cases hp
    have h : run3.ops (on zJob mar1) = .ok (share earlySteps 0) := h
    rw [demo_run3, hs.1] at h
    have := congrArg List.length (Except.ok.inj h)
    rw [List.length_take, Overlap.demo_len.1] at this
    omega
  · have key : ((exec demoStart (earlySteps.map (·.2))).toOption.bind (fun d' =>
        (Reader.openReader (rangeReader zJob feb28 mar1 ["tests/".toList]) ⟨2024, 5, 5, 0, 0, 0⟩ []
          (diskBlobsAt d'.names)).toOption.map (fun kl => (kl.1, delivered (fun _ => 0) Mabel.Blobs.demoLib' {} (read d') kl.2))))
        = some (0, [.row 1, .row 4, .row 5]) := by decide +kernel
    cases hd : exec demoStart (earlySteps.map (·.2)) with
    | error e => rw [hd] at key; cases key
    | ok d' =>
      rw [hd] at key
      simp only [Except.toOption, Option.bind_some] at key
      cases hl : Reader.openReader (rangeReader zJob feb28 mar1 ["tests/".toList]) ⟨2024, 5, 5, 0, 0, 0⟩ []
          (diskBlobsAt d'.names) with
      | error e => rw [hl] at key; cases key
      | ok kl =>
        rw [hl] at key
        simp only [Option.map_some, Option.some.injEq, Prod.mk.injEq] at key
        obtain ⟨k, l⟩ := kl
        obtain ⟨rfl, key⟩ := key
        exact ⟨d', l, rfl, hl, key⟩

/-- The second part of the job, if it reports a failure instead. -/
def failedPart : Run (Fin 10) := { part2 with ending := .failed [] }

/-- The steps when the second part has stored what it has and reported a failure, and the first has ended. -/
def failedSteps : List (Nat × Op) :=
  (demoOps failedPart).map (fun o => (1, o)) ++ (demoOps run3).map (fun o => (0, o))

/-- **A part that reports a failure is read with the others**: the other part marks the frame, in which what the failed part
has stored is too. -/
theorem C99_failed_part_fails :
    Taken zJob ([run3, failedPart].map (fun r => (mar1, r))) failedSteps ∧
    ∃ d' l, exec demoStart (failedSteps.map (·.2)) = .ok d' ∧
      Reader.openReader (rangeReader zJob feb28 mar1 ["tests/".toList]) ⟨2024, 5, 5, 0, 0, 0⟩ [] (diskBlobsAt d'.names) = .ok (0, l) ∧
      delivered (fun _ => 0) Mabel.Blobs.demoLib' {} (read d') l = [.row 1, .row 2, .row 3, .row 4, .row 5] := by
  have hs : share failedSteps 0 = demoOps run3 ∧ share failedSteps 1 = demoOps failedPart := by
    constructor <;> (rw [failedSteps, share_append, share_map, share_map]; simp)
  have hfp : failedPart.ops (on zJob mar1) = .ok (demoOps failedPart) := demo_ops (by decide +kernel)
  refine ⟨⟨?_, ?_⟩, ?_⟩
  · intro i p hp
    obtain ⟨e1, e2⟩ := runs_get hp
    rw [e1]
    match i, e2 with
    | 0, e2 =>
      have e2 := Option.some.inj e2
      rw [← e2, hs.1]
      exact ⟨_, demo_run3, List.prefix_refl _⟩
    | 1, e2 =>
      have e2 := Option.some.inj e2
      rw [← e2, hs.2]
      exact ⟨_, hfp, List.prefix_refl _⟩
  · intro x hx
    simp only [failedSteps, List.mem_append, List.mem_map] at hx
    show x.1 < 2
    rcases hx with ⟨o, -, rfl⟩ | ⟨o, -, rfl⟩ <;> simp
  · have key : ((exec demoStart (failedSteps.map (·.2))).toOption.bind (fun d' =>
        (Reader.openReader (rangeReader zJob feb28 mar1 ["tests/".toList]) ⟨2024, 5, 5, 0, 0, 0⟩ []
          (diskBlobsAt d'.names)).toOption.map (fun kl => (kl.1, delivered (fun _ => 0) Mabel.Blobs.demoLib' {} (read d') kl.2))))
        = some (0, [.row 1, .row 2, .row 3, .row 4, .row 5]) := by decide +kernel
    cases hd : exec demoStart (failedSteps.map (·.2)) with
    | error e => rw [hd] at key; cases key
    | ok d' =>
      rw [hd] at key
      simp only [Except.toOption, Option.bind_some] at key
      cases hl : Reader.openReader (rangeReader zJob feb28 mar1 ["tests/".toList]) ⟨2024, 5, 5, 0, 0, 0⟩ []
          (diskBlobsAt d'.names) with
      | error e => rw [hl] at key; cases key
      | ok kl =>
        rw [hl] at key
        simp only [Option.map_some, Option.some.injEq, Prod.mk.injEq] at key
        obtain ⟨k, l⟩ := kl
        obtain ⟨rfl, key⟩ := key
        exact ⟨d', l, rfl, hl, key⟩

end Mabel.Split
