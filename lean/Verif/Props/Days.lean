import Verif.Props.History
import Verif.Lemmas.ObjectStore

/-!
# Runs for many days and readers of a range of days: C87
-/

namespace Mabel.History
open Mabel.Py Mabel.Paths Mabel.Naming Mabel.Spec Mabel.Listing Mabel.EndToEnd Mabel.Dates
open Mabel.Blobs (Lib Faithful delivered Item readBlob Names delivered_eq)
open Mabel.Disk hiding Bytes
variable {ρ : Type}

/-! ## Days -/

/-- A day: a date of the years 1000 to 9999, at midnight. -/
structure Day (t : DateTime) : Prop where
  valid : t.valid = true
  hour : t.hour = 0
  minute : t.minute = 0
  second : t.second = 0
  year : 1000 ≤ t.year

/-- The job for a day. -/
def on (w : Job) (t : DateTime) : Job := { w with date := t }

/-- The folder of a day. -/
def folderOf (ls : List (List Piece)) (t : DateTime) : List Str := ls.map (filled t)

/-- The dataset has a folder for each day: the folders depend on the day only, look like none of the special
folders, and are in the order of the days. -/
structure Daily (w : Job) (ls : List (List Piece)) : Prop where
  ok : ∀ t, t.valid = true → (on w t).OK ls
  plain : ∀ t, Day t → PlainBase ((on w t).base ls)
  day : ∀ t, t.valid = true → folderOf ls t = folderOf ls (midnight t)
  order : ∀ s t, Day s → Day t → s.seconds < t.seconds →
    ((on w s).base ls).length = ((on w t).base ls).length ∧ (on w s).base ls < (on w t).base ls

theorem Day.eq_of_seconds {s t : DateTime} (hs : Day s) (ht : Day t) (h : s.seconds = t.seconds) : s = t :=
  DateTime.seconds_inj hs.valid ht.valid h

theorem Daily.folder_ne {w : Job} {ls : List (List Piece)} (h : Daily w ls) {s t : DateTime} (hs : Day s) (ht : Day t)
    (hne : s ≠ t) : folderOf ls s ≠ folderOf ls t := by
  intro e
  have e' : (on w s).base ls = (on w t).base ls := by
    show join ['/'] (folderOf ls s) = join ['/'] (folderOf ls t)
    rw [e]
  rcases Nat.lt_trichotomy s.seconds t.seconds with h1 | h1 | h1
  · have := (h.order s t hs ht h1).2
    rw [e'] at this
    exact List.lt_irrefl _ this
  · exact hne (hs.eq_of_seconds ht h1)
  · have := (h.order t s ht hs h1).2
    rw [e'] at this
    exact List.lt_irrefl _ this

/-! ## The runs -/

/-- The disk between runs, for the days `S`: `H t` is the history of the day `t`. -/
structure Kept (w : Job) (ls : List (List Piece)) (S : DateTime → Prop) (H : DateTime → List Batch) (d : Disk) : Prop where
  valid : ∀ t, S t → ∀ b ∈ H t, b.now.valid = true
  hex : ∀ t, S t → ∀ b ∈ H t, ∀ i ∈ b.ids, HexId i
  holds : ∀ t, S t → Holds (on w t) (H t) d.names ⟨[], folderOf ls t⟩
  tidy : ∀ t, S t → Tidy (folderOf ls t) d

/-- One run. -/
theorem one_day_run {w : Job} {ls : List (List Piece)} (hw : Daily w ls) {S : DateTime → Prop} (hS : ∀ t, S t → Day t)
    {H : DateTime → List Batch} {d : Disk} (hk : Kept w ls S H d) {t : DateTime} (hSt : S t) (r : Run ρ)
    (hr : r.OK (on w t)) (hnew : ∀ b ∈ H t, b.now.seconds < r.now.seconds) :
    ∃ b d', afterRun (on w t) d r = .ok d' ∧ b.now = r.now ∧ b.ignored = false ∧
      (b.complete = true ↔ r.Finished (on w t)) ∧
      Kept w ls S (fun u => if u = t then H t ++ [b] else H u) d' ∧
      (∀ x bytes, read d x = .ok bytes → read d' x = .ok bytes) ∧
      (r.Finished (on w t) → b.ids = (blobsOf r).map Prod.fst ∧ ∀ p ∈ blobsOf r,
        read d' (nameOf (on w t) ls r.now p.1) = .ok p.2) := by
  have hok := hw.ok t (hS t hSt).valid
  obtain ⟨b, d', he, e1, e2, e3, e4, hh, htd, hold, hfull⟩ :=
    one_run (on w t) ls hok (H t) (hk.valid t hSt) (hk.hex t hSt) d (hk.holds t hSt) (hk.tidy t hSt) r hr hnew
  obtain ⟨k, hst, -⟩ := afterRun_eq hok hr
  replace hst : stopped d (on w t) r.now (blobsOf r) k = .ok d' := by
    rw [← hst]; exact he
  refine ⟨b, d', he, e1, e2, e3, ⟨?_, ?_, ?_, ?_⟩, hold, hfull⟩
  · intro u hu b' hb'
    by_cases hut : u = t
    · rw [if_pos hut] at hb'
      rcases List.mem_append.1 hb' with hb' | hb'
      · exact hk.valid t hSt b' hb'
      · rw [List.mem_singleton.1 hb', e1]; exact hr.now
    · rw [if_neg hut] at hb'
      exact hk.valid u hu b' hb'
  · intro u hu b' hb'
    by_cases hut : u = t
    · rw [if_pos hut] at hb'
      rcases List.mem_append.1 hb' with hb' | hb'
      · exact hk.hex t hSt b' hb'
      · rw [List.mem_singleton.1 hb']; exact e4
    · rw [if_neg hut] at hb'
      exact hk.hex u hu b' hb'
  · intro u hu
    by_cases hut : u = t
    · simp only [if_pos hut]
      rw [hut]
      exact hh
    · simp only [if_neg hut]
      exact stopped_elsewhere hok hr.now hr.id hst (by simp [folderOf]) (hw.folder_ne (hS u hu) (hS t hSt) hut)
        hh.normal (hk.holds u hu)
  · intro u hu
    exact stopped_tidy hok hr.now hr.id hst (by simp [folderOf]) (hk.tidy u hu)

/-- Any number of runs. -/
theorem all_day_runs {w : Job} {ls : List (List Piece)} (hw : Daily w ls) {S : DateTime → Prop} (hS : ∀ t, S t → Day t)
    (runs : List (DateTime × Run ρ)) (hr : ∀ p ∈ runs, S p.1 ∧ p.2.OK (on w p.1))
    (hord : runs.Pairwise (fun a b => a.1 = b.1 → a.2.now.seconds < b.2.now.seconds))
    (H : DateTime → List Batch) (d : Disk) (hk : Kept w ls S H d)
    (hnew : ∀ p ∈ runs, ∀ b ∈ H p.1, b.now.seconds < p.2.now.seconds) :
    ∃ H' d', afterDayRuns w d runs = .ok d' ∧
      (∀ t, S t → ∃ hs', H' t = H t ++ hs' ∧ ∀ b ∈ hs', b.ignored = false ∧
        ∃ p ∈ runs, p.1 = t ∧ b.now = p.2.now ∧ (b.complete = true → p.2.Finished (on w t))) ∧
      Kept w ls S H' d' ∧
      (∀ x bytes, read d x = .ok bytes → read d' x = .ok bytes) := by
  induction runs generalizing H d with
  | nil => exact ⟨H, d, rfl, fun t _ => ⟨[], by simp, by simp⟩, hk, fun _ _ hx => hx⟩
  | cons r runs ih =>
    obtain ⟨hlt, hord'⟩ := List.pairwise_cons.1 hord
    obtain ⟨hSr, hrr⟩ := hr r (by simp)
    obtain ⟨b, d1, he1, e1, e2, e3, hk1, hold1, -⟩ :=
      one_day_run hw hS hk hSr r.2 hrr (fun b hb => hnew r (by simp) b hb)
    obtain ⟨H', d', he, h1, h2, h3⟩ := ih (fun r' h' => hr r' (by simp [h'])) hord' _ d1 hk1 (by
      intro p hp b' hb'
      by_cases hpt : p.1 = r.1
      · rw [if_pos hpt] at hb'
        rcases List.mem_append.1 hb' with hb' | hb'
        · exact hnew p (by simp [hp]) b' (by rw [hpt]; exact hb')
        · rw [List.mem_singleton.1 hb', e1]
          exact hlt p hp hpt.symm
      · rw [if_neg hpt] at hb'
        exact hnew p (by simp [hp]) b' hb')
    refine ⟨H', d', ?_, ?_, h2, fun x bytes hx => h3 x bytes (hold1 x bytes hx)⟩
    · have he1' : afterRun { w with date := r.1 } d r.2 = .ok d1 := he1
      simp only [afterDayRuns, he1']
      exact he
    · intro t ht
      obtain ⟨hs', g1, g2⟩ := h1 t ht
      by_cases htr : t = r.1
      · rw [if_pos htr] at g1
        refine ⟨b :: hs', by rw [g1, htr]; simp, ?_⟩
        intro b' hb'
        rcases List.mem_cons.1 hb' with rfl | hb'
        · exact ⟨e2, r, by simp, htr.symm, e1, fun hc => by rw [htr]; exact e3.1 hc⟩
        · obtain ⟨k1, p, k2, k3⟩ := g2 b' hb'
          exact ⟨k1, p, by simp [k2], k3⟩
      · rw [if_neg htr] at g1
        refine ⟨hs', g1, ?_⟩
        intro b' hb'
        obtain ⟨k1, p, k2, k3⟩ := g2 b' hb'
        exact ⟨k1, p, by simp [k2], k3⟩

theorem afterDayRuns_append (w : Job) (d : Disk) (a b : List (DateTime × Run ρ)) :
    afterDayRuns w d (a ++ b) = match afterDayRuns w d a with
      | .error e => .error e
      | .ok d' => afterDayRuns w d' b := by
  induction a generalizing d with
  | nil => rfl
  | cons r a ih =>
    simp only [List.cons_append, afterDayRuns]
    cases afterRun { w with date := r.1 } d r.2 with
    | error e => rfl
    | ok d' => exact ih d'

/-! ## The specification -/

/-- What a reader should see of a day: the valid records of the last of its runs that came to its end, and
nothing if there is none. -/
def LastOf (w : Job) (runs : List (DateTime × Run ρ)) (t : DateTime) (rows : List ρ) : Prop :=
  (∃ pre r post, runs = pre ++ (t, r) :: post ∧ r.Finished (on w t) ∧
    (∀ p ∈ post, p.1 = t → ¬ p.2.Finished (on w t)) ∧ rows = r.records.filter r.config.valid) ∨
  ((∀ p ∈ runs, p.1 = t → ¬ p.2.Finished (on w t)) ∧ rows = [])

/-- The days from one to another, in order. -/
structure DaysOf (first last : DateTime) (days : List DateTime) : Prop where
  mem : ∀ t, t ∈ days ↔ Day t ∧ first.seconds ≤ t.seconds ∧ t.seconds ≤ last.seconds
  order : days.Pairwise (fun s t => s.seconds < t.seconds)

/-- A reader of the days from one to another, with a partition filter if one is given. -/
def rangeReader (w : Job) (first last : DateTime) (prefixes : List Str) (flt : Option PartitionFilter := none) :
    Reader.Config where
  dataset := w.dataset
  partitions := w.partitions
  filter := flt
  start := .date first.year first.month first.day
  stop := .date last.year last.month last.day
  freshness := []
  prefixes := prefixes

/-! ## One day of the listing -/

/-- What is listed and read for a day. -/
structure DayRead (w : Job) (ls : List (List Piece)) (lib : Lib ρ) (d : Disk) (t : DateTime) (rows : List ρ)
    (names : List Str) : Prop where
  listed : ∃ cl, cycleBlobs none (diskBlobsAt d.names ⟨[], folderOf ls t⟩) = .ok cl ∧ cl.Perm names
  order : names.Pairwise (fun x y => x < y)
  beneath : ∀ x ∈ names, ∃ s, x = (on w t).base ls ++ '/' :: s
  readable : ∀ x ∈ names, isReadable x = true
  delivers : names.flatMap (fun x => readBlob lib {} x (read d x)) = rows.map .row
  empty : names = [] ↔ rows = []

/-- Libraries that read nothing. -/
def noLib : Lib ρ where
  unzstd _ := .error .storageFailed
  unlzma _ := .error .storageFailed
  unzip _ := .error .storageFailed
  parquet _ := .error .storageFailed
  csv _ := .error .storageFailed
  json _ := .error .storageFailed
  xml _ := .error .storageFailed
  truthy _ := true

theorem day_none {w : Job} {ls : List (List Piece)} (hw : Daily w ls)
    {S : DateTime → Prop} (hS : ∀ t, S t → Day t)
    (runs : List (DateTime × Run ρ)) (hr : ∀ p ∈ runs, S p.1 ∧ p.2.OK (on w p.1))
    (hord : runs.Pairwise (fun a b => a.1 = b.1 → a.2.now.seconds < b.2.now.seconds))
    (d : Disk) (hd : ∀ t, S t → Fresh (folderOf ls t) d) (lib : Lib ρ)
    {d' : Disk} (he : afterDayRuns w d runs = .ok d') {t : DateTime} (hSt : S t)
    (hnone : ∀ p ∈ runs, p.1 = t → ¬ p.2.Finished (on w t)) : DayRead w ls lib d' t ([] : List ρ) [] := by
  have hk0 : Kept w ls S (fun _ => []) d :=
    ⟨by simp, by simp, fun t ht => (hd t ht).holds _, fun t ht => (hd t ht).tidy⟩
  have hok := hw.ok t (hS t hSt).valid
  obtain ⟨H1, d1, he1, g1, hk1, -⟩ := all_day_runs hw hS runs hr hord _ d hk0 (by simp)
  rw [he] at he1
  cases he1
  obtain ⟨hs', k1, k2⟩ := g1 t hSt
  obtain ⟨cl, hcl, hclx⟩ := cycle_history hok (hw.plain t (hS t hSt)) (hk1.valid t hSt) (hk1.hex t hSt) (hk1.holds t hSt)
  have hnil : cl = [] := by
    rw [List.eq_nil_iff_forall_not_mem]
    intro x hx
    obtain ⟨u, hu, -⟩ := (hclx x).1 hx
    obtain ⟨b, hbm, -, hc⟩ := hu.complete
    rw [k1, List.nil_append] at hbm
    obtain ⟨-, p, hp, k3, -, k4⟩ := k2 b hbm
    exact hnone p hp k3 (k4 hc)
  exact ⟨⟨cl, hcl, by rw [hnil]⟩, List.Pairwise.nil, by simp, by simp, by simp, by simp⟩

/-- A day with a run that came to its end, and after it only such that did not: the blobs of that run are listed and
read. -/
theorem day_read_of {w : Job} {ls : List (List Piece)} (hw : Daily w ls) (hfmt : w.format ≠ "text".toList)
    {S : DateTime → Prop} (hS : ∀ t, S t → Day t)
    (pre post : List (DateTime × Run ρ)) (t : DateTime) (r : Run ρ)
    (hr : ∀ p ∈ pre ++ (t, r) :: post, S p.1 ∧ p.2.OK (on w p.1))
    (hord : (pre ++ (t, r) :: post).Pairwise (fun a b => a.1 = b.1 → a.2.now.seconds < b.2.now.seconds))
    (d : Disk) (hd : ∀ t, S t → Fresh (folderOf ls t) d) (lib : Lib ρ)
    (hl : ∀ p ∈ pre ++ (t, r) :: post, Faithful p.2.config.codec lib p.2.records)
    (ht : ∀ p ∈ pre ++ (t, r) :: post, ∀ x ∈ p.2.records, lib.truthy x = true) {d' : Disk}
    (he : afterDayRuns w d (pre ++ (t, r) :: post) = .ok d') (hfin : r.Finished (on w t)) :
    (∀ p ∈ blobsOf r, read d' (nameOf (on w t) ls r.now p.1) = .ok p.2) ∧
    ((∀ p ∈ post, p.1 = t → ¬ p.2.Finished (on w t)) →
      DayRead w ls lib d' t (r.records.filter r.config.valid) (((blobsOf r).map Prod.fst).map (nameOf (on w t) ls r.now))) := by
  have hk0 : Kept w ls S (fun _ => []) d :=
    ⟨by simp, by simp, fun t ht => (hd t ht).holds _, fun t ht => (hd t ht).tidy⟩
  have hSt : S t := (hr (t, r) (by simp)).1
  have hok := hw.ok t (hS t hSt).valid
  obtain ⟨hord1, hord2, hord3⟩ := List.pairwise_append.1 hord
  obtain ⟨hord4, hord5⟩ := List.pairwise_cons.1 hord2
  have hrr := (hr (t, r) (by simp)).2
  -- before
  obtain ⟨H1, d1, he1, g1, hk1, -⟩ := all_day_runs hw hS pre (fun p hp => hr p (by simp [hp])) hord1 _ d hk0 (by simp)
  have hnew1 : ∀ b ∈ H1 t, b.now.seconds < r.now.seconds := by
    intro b hb
    obtain ⟨hs', k1, k2⟩ := g1 t hSt
    rw [k1, List.nil_append] at hb
    obtain ⟨-, p, hp, k3, k4, -⟩ := k2 b hb
    rw [k4]
    exact hord3 p hp (t, r) (by simp) k3
  -- the run
  obtain ⟨b, d2, he2, e1, e2, e3, hk2, hold2, hfull⟩ := one_day_run hw hS hk1 hSt r hrr hnew1
  obtain ⟨hids, hread⟩ := hfull hfin
  -- after
  obtain ⟨H3, d3, he3, g3, hk3, hold3⟩ := all_day_runs hw hS post (fun p hp => hr p (by simp [hp])) hord5 _ d2 hk2 (by
    intro p hp b' hb'
    by_cases hpt : p.1 = t
    · rw [if_pos hpt] at hb'
      rcases List.mem_append.1 hb' with hb' | hb'
      · exact Nat.lt_trans (hnew1 b' hb') (hord4 p hp hpt.symm)
      · rw [List.mem_singleton.1 hb', e1]; exact hord4 p hp hpt.symm
    · rw [if_neg hpt] at hb'
      obtain ⟨hs', k1, k2⟩ := g1 p.1 (hr p (by simp [hp])).1
      rw [k1, List.nil_append] at hb'
      obtain ⟨-, p', hp', k3, k4, -⟩ := k2 b' hb'
      rw [k4]
      exact hord3 p' hp' p (by simp [hp]) k3)
  have hd3 : d' = d3 := by
    rw [afterDayRuns_append, he1] at he
    have he2' : afterRun { w with date := t } d1 r = .ok d2 := he2
    simp only [afterDayRuns, he2', he3] at he
    exact (Except.ok.inj he).symm
  subst hd3
  refine ⟨fun p hp => hold3 _ _ (hread p hp), fun hpost => ?_⟩
  obtain ⟨hs3, k1, k2⟩ := g3 t hSt
  simp only [if_true] at k1
  have hlatest : ∀ u, Latest (H3 t) u ↔ u = b.now := by
    intro u
    rw [k1, latest_unfinisheds, latest_finished (e3.2 hfin) e2 (by rw [e1]; exact hnew1)]
    intro b' hb'
    obtain ⟨k3, p, hp, k4, -, k5⟩ := k2 b' hb'
    refine ⟨?_, k3⟩
    cases hc : b'.complete with
    | false => rfl
    | true => exact absurd (k5 hc) (hpost p hp k4)
  have hbm : b ∈ H3 t := by rw [k1]; simp
  have huniq : ∀ b' ∈ H3 t, b'.now = b.now → b' = b := by
    intro b' hb' e
    rw [k1] at hb'
    rcases List.mem_append.1 hb' with hb' | hb'
    · rcases List.mem_append.1 hb' with hb' | hb'
      · have := hnew1 b' hb'
        rw [e, e1] at this
        omega
      · exact List.mem_singleton.1 hb'
    · obtain ⟨-, p, hp, k4, k5, -⟩ := k2 b' hb'
      have := hord4 p hp k4.symm
      rw [← k5, e, e1] at this
      exact absurd this (Nat.lt_irrefl _)
  have hordb : b.ids.Pairwise (fun i j => i.length = j.length ∧ i < j) := by rw [hids]; exact hrr.pairwise
  have hst : ∀ p ∈ b.ids.zip (writtenBlobs r.config (r.records.map .append)), ∀ x,
      batchBlob (on w t).dataset (on w t).partitions (asAtName b.now) (on w t).date (on w t).rnd (on w t).format p.1
        = .ok x → read d' x = .ok p.2 := by
    intro p hp x hx
    rw [e1, batchBlob_eq hok hrr.now] at hx
    cases hx
    refine hold3 _ _ (hread p ?_)
    rw [hids, ← blobsOf_snd hfin.1.1] at hp
    have : ((blobsOf r).map Prod.fst).zip ((blobsOf r).map Prod.snd) = blobsOf r := by
      rw [List.zip_map']
      exact List.map_id' _
    rw [this] at hp
    exact hp
  obtain ⟨hrows, hne⟩ := day_rows (on w t) ls hok hfmt r.config hrr.format lib
    (r.records.map .append) ((hl (t, r) (by simp)).mono (fun x hx => (List.mem_filter.1 (by rwa [accepted_appends] at hx)).1))
    (fun x hx => ht (t, r) (by simp) x (List.mem_filter.1 (by rwa [accepted_appends] at hx)).1) b (by rw [hids, ← blobsOf_snd hfin.1.1]; simp)
    (by
      intro i hi
      rw [hids] at hi
      obtain ⟨p, hp, rfl⟩ := List.mem_map.1 hi
      exact (hrr.id p hp).2)
    (hk3.valid t hSt b hbm) (hk3.hex t hSt b hbm) (read d') hst
  rw [accepted_appends] at hrows hne
  rw [← hids, ← e1]
  refine ⟨?_, nameOf_lt hordb, ?_, ?_, hrows, ?_⟩
  · exact day_names (on w t) ls hok (hw.plain t (hS t hSt)) b hordb (H3 t) hbm hlatest huniq (hk3.valid t hSt)
      (hk3.hex t hSt) d'.names (hk3.tidy t hSt).nodup (hk3.holds t hSt)
  · intro x hx
    obtain ⟨i, -, rfl⟩ := List.mem_map.1 hx
    exact ⟨asAtName b.now ++ '/' :: (i ++ extension w.format), by simp [nameOf, Framed.path, on]⟩
  · intro x hx
    obtain ⟨i, -, rfl⟩ := List.mem_map.1 hx
    exact C22_blobs_readable _ _ _ _
  · constructor
    · intro h
      by_contra hc
      exact hne hc (by simpa using h)
    · intro h
      rw [hids, blobsOf_none hfin.1.1 h]
      rfl

theorem day_read {w : Job} {ls : List (List Piece)} (hw : Daily w ls) (hfmt : w.format ≠ "text".toList)
    {S : DateTime → Prop} (hS : ∀ t, S t → Day t)
    (runs : List (DateTime × Run ρ)) (hr : ∀ p ∈ runs, S p.1 ∧ p.2.OK (on w p.1))
    (hord : runs.Pairwise (fun a b => a.1 = b.1 → a.2.now.seconds < b.2.now.seconds))
    (d : Disk) (hd : ∀ t, S t → Fresh (folderOf ls t) d) (lib : Lib ρ) (hl : ∀ p ∈ runs, Faithful p.2.config.codec lib p.2.records)
    (ht : ∀ p ∈ runs, ∀ x ∈ p.2.records, lib.truthy x = true) {d' : Disk} (he : afterDayRuns w d runs = .ok d') {t : DateTime} (hSt : S t)
    {rows : List ρ} (hlast : LastOf w runs t rows) : ∃ names, DayRead w ls lib d' t rows names := by
  rcases hlast with ⟨pre, r, post, hruns, hfin, hpost, rfl⟩ | ⟨hnone, rfl⟩
  · subst hruns
    exact ⟨_, (day_read_of hw hfmt hS pre post t r hr hord d hd lib hl ht he hfin).2 hpost⟩
  · exact ⟨[], day_none hw hS runs hr hord d hd lib he hSt hnone⟩

/-! ## The range -/

theorem midnight_day {t : DateTime} (hv : t.valid = true) (hy : 1000 ≤ t.year) : Day (midnight t) := by
  refine ⟨?_, rfl, rfl, rfl, hy⟩
  rw [DateTime.valid_iff] at hv ⊢
  simp only [midnight]
  omega

theorem Day.midnight_eq {t : DateTime} (h : Day t) : midnight t = t := by
  obtain ⟨y, m, d, hh, mm, ss⟩ := t
  have h1 := h.hour
  have h2 := h.minute
  have h3 := h.second
  simp only at h1 h2 h3
  rw [h1, h2, h3]
  rfl

theorem Day.seconds_eq {t : DateTime} (h : Day t) : t.seconds = 86400 * t.ordinal := by
  unfold DateTime.seconds
  rw [h.hour, h.minute, h.second]
  omega

theorem midnight_seconds (t : DateTime) : (midnight t).seconds = 86400 * t.ordinal := by
  have : (midnight t).ordinal = t.ordinal := rfl
  unfold DateTime.seconds
  rw [this]
  simp only [midnight]
  omega

theorem year_le_of_seconds {s t : DateTime} (hs : s.valid = true) (ht : t.valid = true) (h : s.ordinal ≤ t.ordinal) :
    s.year ≤ t.year := by
  by_contra hlt
  have := DateTime.ordinal_lt_of_lex ht hs (Or.inl (by omega))
  omega

/-- The folders visited are those of the days. -/
theorem visited_days {w : Job} {ls : List (List Piece)} (hw : Daily w ls) {first last : DateTime} (hf : Day first)
    (hl : Day last) {days : List DateTime} (hdays : DaysOf first last days) {hours : List DateTime}
    (hh : ∀ t, t ∈ hours ↔ HourOf first last t) (rnd : Str) :
    (visited (readerDataset w.dataset w.partitions) rnd hours).Perm (days.map (fun t => ⟨[], folderOf ls t⟩)) := by
  have hpath : ∀ t, t.valid = true → cyclePath (readerDataset w.dataset w.partitions) rnd t = ⟨[], folderOf ls (midnight t)⟩ := by
    intro t ht
    rw [← hw.day t ht]
    exact cyclePath_eq (hw.ok t ht) rnd
  unfold visited
  refine (List.perm_ext_iff_of_nodup (dedup_nodup _) ?_).2 ?_
  · rw [List.Nodup, List.pairwise_map]
    refine List.Pairwise.imp_of_mem ?_ hdays.order
    intro s t hs ht hlt e
    have h1 := ((hdays.mem s).1 hs).1
    have h2 := ((hdays.mem t).1 ht).1
    refine hw.folder_ne h1 h2 (fun e => by rw [e] at hlt; omega) ?_
    simpa using e
  · intro x
    rw [dedup_mem, List.mem_map, List.mem_map]
    constructor
    · rintro ⟨u, hu, rfl⟩
      obtain ⟨h1, h2, h3, h4, h5⟩ := (hh u).1 hu
      have hff : first.floorHour = first := by
        obtain ⟨y, m, d, a, b, c⟩ := first
        have e2 := hf.minute
        have e3 := hf.second
        simp only at e2 e3
        rw [e2, e3]
        rfl
      rw [hff, hf.seconds_eq] at h4
      rw [hl.seconds_eq] at h5
      have hus : u.seconds = 86400 * u.ordinal + 3600 * u.hour := by
        unfold DateTime.seconds
        rw [h2, h3]
        omega
      have huh : u.hour < 24 := by
        have := (DateTime.valid_iff u).1 h1
        omega
      have ho : first.ordinal ≤ u.ordinal := by omega
      have hy := year_le_of_seconds hf.valid h1 ho
      have hyf := hf.year
      refine ⟨midnight u, (hdays.mem _).2 ⟨midnight_day h1 (by omega), ?_, ?_⟩, (hpath u h1).symm⟩
      · rw [hf.seconds_eq, midnight_seconds]; omega
      · rw [hl.seconds_eq, midnight_seconds]; omega
    · rintro ⟨t, ht, rfl⟩
      obtain ⟨h1, h2, h3⟩ := (hdays.mem t).1 ht
      refine ⟨t, (hh t).2 ⟨h1.valid, h1.minute, h1.second, ?_, h3⟩, by rw [hpath t h1.valid, h1.midnight_eq]⟩
      exact Nat.le_trans (DateTime.floorHour_le _) h2

theorem listing_range (w : Job) {first last : DateTime} (hf : Day first) (hl : Day last)
    (hle : first.seconds ≤ last.seconds) (prefixes : List Str) (now : DateTime) (rnd : Str) (blobsAt : Posix → List Str)
    (flt : Option PartitionFilter := none) :
    ∃ hours, (∀ t, t ∈ hours ↔ HourOf first last t) ∧
      Reader.listing (rangeReader w first last prefixes flt) now rnd blobsAt 0
        = listBlobs (readerDataset w.dataset w.partitions) rnd flt blobsAt hours := by
  obtain ⟨hours, h1, h2, -⟩ := dateRange_spec (now := now) hf.valid hl.valid hle
  refine ⟨hours, h2, ?_⟩
  have hd : readerDates now (rangeReader w first last prefixes flt).start (rangeReader w first last prefixes flt).stop
      = (first, last) := by
    show (if (midnight first).le (midnight last) then (midnight first, midnight last) else _) = _
    rw [hf.midnight_eq, hl.midnight_eq, if_pos (by simp [DateTime.le, hle])]
  unfold Reader.listing
  rw [hd]
  simp only [Reader.stepBack, h1]
  rfl

/-- What is listed for a day, of any storage. -/
structure DayListAt (w : Job) (ls : List (List Piece)) (blobsAt : Posix → List Str) (t : DateTime) (names : List Str)
    (flt : Option PartitionFilter := none) : Prop where
  listed : ∃ cl, cycleBlobs flt (blobsAt ⟨[], folderOf ls t⟩) = .ok cl ∧ cl.Perm names
  order : names.Pairwise (fun x y => x < y)
  beneath : ∀ x ∈ names, ∃ s, x = (on w t).base ls ++ '/' :: s
  readable : ∀ x ∈ names, isReadable x = true

/-- What is listed for a day on a disk. -/
abbrev DayList (w : Job) (ls : List (List Piece)) (files : List Posix) (t : DateTime) (names : List Str)
    (flt : Option PartitionFilter := none) : Prop := DayListAt w ls (diskBlobsAt files) t names flt

/-- The listing of a range of days. -/
theorem range_open_at {flt : Option PartitionFilter} {w : Job} {ls : List (List Piece)} (hw : Daily w ls)
    {first last : DateTime} (hf : Day first) (hl : Day last) (hle : first.seconds ≤ last.seconds) {days : List DateTime} (hdays : DaysOf first last days)
    (blobsAt : Posix → List Str) (names : DateTime → List Str)
    (hnames : ∀ t ∈ days, DayListAt w ls blobsAt t (names t) flt)
    (now : DateTime) (rnd : Str) (prefixes : List Str) (hallow : Reader.allowed prefixes w.dataset = true) :
    Reader.openReader (rangeReader w first last prefixes flt) now rnd blobsAt
      = (if days.flatMap names = [] then .error .dataNotFound else .ok (0, days.flatMap names)) ∧
    Names (days.flatMap names) ∧
    ∀ (lib : Lib ρ) (hash : Str → Nat) (storage : Str → Except Err Mabel.Blobs.Bytes),
      delivered hash lib {} storage (days.flatMap names)
        = days.flatMap (fun t => (names t).flatMap (fun x => readBlob lib {} x (storage x))) := by
  obtain ⟨hours, hh, hlst⟩ := listing_range w hf hl hle prefixes now rnd blobsAt flt
  have hvis := visited_days hw hf hl hdays hh rnd
  -- the listing
  let g : Posix → List Str := fun p => (cycleBlobs flt (blobsAt p)).toOption.getD []
  have hg : ∀ t ∈ days, cycleBlobs flt (blobsAt ⟨[], folderOf ls t⟩) = .ok (g ⟨[], folderOf ls t⟩) ∧
      (g ⟨[], folderOf ls t⟩).Perm (names t) := by
    intro t ht
    obtain ⟨cl, h1, h2⟩ := (hnames t ht).listed
    have : g ⟨[], folderOf ls t⟩ = cl := by simp only [g, h1]; rfl
    rw [this]
    exact ⟨h1, h2⟩
  have hlt : (days.flatMap names).Pairwise (fun x y => x < y) := by
    rw [List.pairwise_flatMap]
    refine ⟨fun t ht => (hnames t ht).order, ?_⟩
    refine List.Pairwise.imp_of_mem ?_ hdays.order
    intro s t hs ht hst x hx y hy
    obtain ⟨a, rfl⟩ := (hnames s hs).beneath x hx
    obtain ⟨b, rfl⟩ := (hnames t ht).beneath y hy
    obtain ⟨h1, h2⟩ := hw.order s t ((hdays.mem s).1 hs).1 ((hdays.mem t).1 ht).1 hst
    exact (append_lt_append h1).2 (Or.inl h2)
  have hlist : Reader.listing (rangeReader w first last prefixes flt) now rnd blobsAt 0
      = .ok (days.flatMap names) := by
    rw [hlst]
    unfold listBlobs
    rw [mapM_map (g := g)]
    · have hp : ((visited (readerDataset w.dataset w.partitions) rnd hours).map g).flatten.Perm (days.flatMap names) := by
        rw [← List.flatMap_def]
        refine (hvis.flatMap_right g).trans ?_
        rw [List.flatMap_map]
        exact List.Perm.flatMap_left _ (fun t ht => (hg t ht).2)
      simp only
      rw [sorted_eq_of_perm strLe_preorder hp (fun a _ b _ => strLe_antisymm), sorted_of_lt hlt]
    · intro p hp
      obtain ⟨t, ht, rfl⟩ := List.mem_map.1 (hvis.mem_iff.1 hp)
      exact (hg t ht).1
  have hfl : Reader.freshnessLimit (rangeReader w first last prefixes flt) now = .ok 0 := by
    unfold Reader.freshnessLimit
    have : parseDelta (rangeReader w first last prefixes flt).freshness = 0 :=
      show parseDelta [] = 0 by decide
    simp [this]
  have hopen : Reader.openReader (rangeReader w first last prefixes flt) now rnd blobsAt
      = if days.flatMap names = [] then .error .dataNotFound else .ok (0, days.flatMap names) := by
    unfold Reader.openReader
    have ha : Reader.allowed (rangeReader w first last prefixes flt).prefixes (rangeReader w first last prefixes flt).dataset
        = true := hallow
    rw [ha, hfl]
    simp only [Bool.not_true, Bool.false_eq_true, if_false]
    unfold chooseBlobs
    rw [hlist]
    have hr : (days.flatMap names).filter isReadable = days.flatMap names := by
      rw [List.filter_eq_self]
      intro x hx
      obtain ⟨t, ht, hx⟩ := List.mem_flatMap.1 hx
      exact (hnames t ht).readable x hx
    simp only [if_neg (show ¬ (0 : Int) > 1 by omega), hr]
  have hnm : Names (days.flatMap names) := by
    refine ⟨nodup_of_lt hlt, ?_⟩
    intro hx
    obtain ⟨u, hu, hx⟩ := List.mem_flatMap.1 hx
    obtain ⟨s, hs⟩ := (hnames u hu).beneath _ hx
    simp at hs
  refine ⟨hopen, hnm, ?_⟩
  intro lib hash storage
  rw [(delivered_eq hash lib {} storage _ hnm).1, sorted_of_lt hlt, List.flatMap_assoc]

/-- The listing of a range of days on a disk. -/
theorem range_open {flt : Option PartitionFilter} {w : Job} {ls : List (List Piece)} (hw : Daily w ls)
    {first last : DateTime} (hf : Day first) (hl : Day last) (hle : first.seconds ≤ last.seconds) {days : List DateTime} (hdays : DaysOf first last days)
    (d : Disk) (names : DateTime → List Str)
    (hnames : ∀ t ∈ days, DayList w ls d.names t (names t) flt)
    (now : DateTime) (rnd : Str) (prefixes : List Str) (hallow : Reader.allowed prefixes w.dataset = true) :
    Reader.openReader (rangeReader w first last prefixes flt) now rnd (diskBlobsAt d.names)
      = (if days.flatMap names = [] then .error .dataNotFound else .ok (0, days.flatMap names)) ∧
    Names (days.flatMap names) ∧
    ∀ (lib : Lib ρ) (hash : Str → Nat) (storage : Str → Except Err Mabel.Blobs.Bytes),
      delivered hash lib {} storage (days.flatMap names)
        = days.flatMap (fun t => (names t).flatMap (fun x => readBlob lib {} x (storage x))) :=
  range_open_at hw hf hl hle hdays (diskBlobsAt d.names) names hnames now rnd prefixes hallow

/-- The listing and the reading of a range of days. -/
theorem range_read {w : Job} {ls : List (List Piece)} (hw : Daily w ls) {first last : DateTime} (hf : Day first)
    (hl : Day last) (hle : first.seconds ≤ last.seconds) {days : List DateTime} (hdays : DaysOf first last days)
    (lib : Lib ρ) (d : Disk) (rows : DateTime → List ρ)
    (hread : ∀ t ∈ days, ∃ names, DayRead w ls lib d t (rows t) names)
    (now : DateTime) (rnd : Str) (prefixes : List Str) (hallow : Reader.allowed prefixes w.dataset = true)
    (hash : Str → Nat) :
    ((∃ t ∈ days, rows t ≠ []) → ∃ l,
      Reader.openReader (rangeReader w first last prefixes) now rnd (diskBlobsAt d.names) = .ok (0, l) ∧ Names l ∧
      delivered hash lib {} (read d) l = (days.flatMap rows).map .row) ∧
    ((∀ t ∈ days, rows t = []) →
      Reader.openReader (rangeReader w first last prefixes) now rnd (diskBlobsAt d.names) = .error .dataNotFound) := by
  have hread' : ∀ t, ∃ names, t ∈ days → DayRead w ls lib d t (rows t) names := by
    intro t
    by_cases h : t ∈ days
    · obtain ⟨names, hn⟩ := hread t h
      exact ⟨names, fun _ => hn⟩
    · exact ⟨[], fun h' => absurd h' h⟩
  choose names hnames using hread'
  obtain ⟨hopen, hnm, hdel⟩ := range_open (ρ := ρ) hw hf hl hle hdays d names
    (fun t ht => ⟨(hnames t ht).listed, (hnames t ht).order, (hnames t ht).beneath, (hnames t ht).readable⟩)
    now rnd prefixes hallow
  refine ⟨?_, ?_⟩
  · rintro ⟨t, ht, hne⟩
    have hne' : days.flatMap names ≠ [] := by
      intro e
      exact hne ((hnames t ht).empty.1 ((List.flatMap_eq_nil_iff.1 e) t ht))
    refine ⟨days.flatMap names, by rw [hopen, if_neg hne'], hnm, ?_⟩
    rw [hdel, List.map_flatMap]
    apply List.flatMap_congr
    intro u hu
    exact (hnames u hu).delivers
  · intro hall
    rw [hopen, if_pos]
    rw [List.flatMap_eq_nil_iff]
    intro t ht
    exact (hnames t ht).empty.2 (hall t ht)

/-- What is listed and delivered. -/
theorem range_core
    -- the dataset, and the format
    (w : Job) (ls : List (List Piece)) (hw : Daily w ls) (hfmt : w.format ≠ "text".toList)
    -- the reader
    (first last : DateTime) (hf : Day first) (hl : Day last) (hle : first.seconds ≤ last.seconds)
    (days : List DateTime) (hdays : DaysOf first last days)
    -- the runs, each with its day
    (runs : List (DateTime × Run ρ)) (hok : ∀ p ∈ runs, Day p.1 ∧ p.2.OK (on w p.1))
    (hord : runs.Pairwise (fun a b => a.1 = b.1 → a.2.now.seconds < b.2.now.seconds))
    -- the disk before: nothing in the folders of these days
    (d : Disk) (hd : ∀ t, (t ∈ days ∨ ∃ p ∈ runs, p.1 = t) → Fresh (folderOf ls t) d)
    -- the libraries; no record is empty (see C70)
    (lib : Lib ρ) (hlib : ∀ p ∈ runs, Faithful p.2.config.codec lib p.2.records) (htr : ∀ p ∈ runs, ∀ x ∈ p.2.records, lib.truthy x = true)
    -- the records of each day; there is at least one
    (rows : DateTime → List ρ) (hrows : ∀ t ∈ days, LastOf w runs t (rows t)) (hne : ∃ t ∈ days, rows t ≠ [])
    (now : DateTime) (rnd : Str) (prefixes : List Str) (hallow : Reader.allowed prefixes w.dataset = true)
    (hash : Str → Nat) :
    ∃ d' l, afterDayRuns w d runs = .ok d' ∧
      Reader.openReader (rangeReader w first last prefixes) now rnd (diskBlobsAt d'.names) = .ok (0, l) ∧
      Names l ∧
      delivered hash lib {} (read d') l = (days.flatMap rows).map .row := by
  let S : DateTime → Prop := fun t => t ∈ days ∨ ∃ p ∈ runs, p.1 = t
  have hS : ∀ t, S t → Day t := by
    rintro t (h | ⟨p, hp, rfl⟩)
    · exact ((hdays.mem t).1 h).1
    · exact (hok p hp).1
  have hr : ∀ p ∈ runs, S p.1 ∧ p.2.OK (on w p.1) := fun p hp => ⟨Or.inr ⟨p, hp, rfl⟩, (hok p hp).2⟩
  obtain ⟨H', d', he, -⟩ := all_day_runs hw hS runs hr hord (fun _ => []) d
    ⟨by simp, by simp, fun t ht => (hd t ht).holds _, fun t ht => (hd t ht).tidy⟩ (by simp)
  obtain ⟨l, h1, h3, h2⟩ := (range_read hw hf hl hle hdays lib d' rows
    (fun t ht => day_read hw hfmt hS runs hr hord d hd lib hlib htr he (Or.inl ht) (hrows t ht)) now rnd prefixes hallow
    hash).1 hne
  exact ⟨d', l, he, h1, h3, h2⟩

/-- **C87.**  Any number of runs of batch writers, each for a day of its own, one after the other; each appends
any records and finalizes, and each may die after any of its steps on the disk.  Then a reader of a range of
days delivers, day after day, exactly the records that were valid for the last run of the day that was not
stopped, each once, in the order they were appended. -/
theorem C87_range_is_read
    -- the dataset, and the format
    (w : Job) (ls : List (List Piece)) (hw : Daily w ls) (hfmt : w.format ≠ "text".toList)
    -- the reader
    (first last : DateTime) (hf : Day first) (hl : Day last) (hle : first.seconds ≤ last.seconds)
    (days : List DateTime) (hdays : DaysOf first last days)
    -- the runs, each with its day
    (runs : List (DateTime × Run ρ)) (hok : ∀ p ∈ runs, Day p.1 ∧ p.2.OK (on w p.1))
    (hord : runs.Pairwise (fun a b => a.1 = b.1 → a.2.now.seconds < b.2.now.seconds))
    -- the disk before: nothing in the folders of these days
    (d : Disk) (hd : ∀ t, (t ∈ days ∨ ∃ p ∈ runs, p.1 = t) → Fresh (folderOf ls t) d)
    -- the libraries; no record is empty (see C70)
    (lib : Lib ρ) (hlib : ∀ p ∈ runs, Faithful p.2.config.codec lib p.2.records) (htr : ∀ p ∈ runs, ∀ x ∈ p.2.records, lib.truthy x = true)
    -- the records of each day; there is at least one
    (rows : DateTime → List ρ) (hrows : ∀ t ∈ days, LastOf w runs t (rows t)) (hne : ∃ t ∈ days, rows t ≠ [])
    (now : DateTime) (rnd : Str) (prefixes : List Str) (hallow : Reader.allowed prefixes w.dataset = true)
    (hash : Str → Nat) :
    ∃ d' l, afterDayRuns w d runs = .ok d' ∧
      Reader.openReader (rangeReader w first last prefixes) now rnd (diskBlobsAt d'.names) = .ok (0, l) ∧
      delivered hash lib {} (read d') l = (days.flatMap rows).map .row := by
  obtain ⟨d', l, h1, h2, -, h3⟩ := range_core w ls hw hfmt first last hf hl hle days hdays runs hok hord d hd lib hlib htr rows
    hrows hne now rnd prefixes hallow hash
  exact ⟨d', l, h1, h2, h3⟩

/-- **C87.**  If no run for a day of the range came to its end, the reader says that there is no data. -/
theorem C87_nothing_finished
    (w : Job) (ls : List (List Piece)) (hw : Daily w ls)
    (first last : DateTime) (hf : Day first) (hl : Day last) (hle : first.seconds ≤ last.seconds)
    (days : List DateTime) (hdays : DaysOf first last days)
    (runs : List (DateTime × Run ρ)) (hok : ∀ p ∈ runs, Day p.1 ∧ p.2.OK (on w p.1))
    (hord : runs.Pairwise (fun a b => a.1 = b.1 → a.2.now.seconds < b.2.now.seconds))
    (hnone : ∀ p ∈ runs, p.1 ∈ days → ¬ p.2.Finished (on w p.1))
    (d : Disk) (hd : ∀ t, (t ∈ days ∨ ∃ p ∈ runs, p.1 = t) → Fresh (folderOf ls t) d)
    (now : DateTime) (rnd : Str) (prefixes : List Str) (hallow : Reader.allowed prefixes w.dataset = true) :
    ∃ d', afterDayRuns w d runs = .ok d' ∧
      Reader.openReader (rangeReader w first last prefixes) now rnd (diskBlobsAt d'.names) = .error .dataNotFound := by
  let S : DateTime → Prop := fun t => t ∈ days ∨ ∃ p ∈ runs, p.1 = t
  have hS : ∀ t, S t → Day t := by
    rintro t (h | ⟨p, hp, rfl⟩)
    · exact ((hdays.mem t).1 h).1
    · exact (hok p hp).1
  have hr : ∀ p ∈ runs, S p.1 ∧ p.2.OK (on w p.1) := fun p hp => ⟨Or.inr ⟨p, hp, rfl⟩, (hok p hp).2⟩
  obtain ⟨H', d', he, -⟩ := all_day_runs hw hS runs hr hord (fun _ => []) d
    ⟨by simp, by simp, fun t ht => (hd t ht).holds _, fun t ht => (hd t ht).tidy⟩ (by simp)
  exact ⟨d', he, (range_read hw hf hl hle hdays noLib d' (fun _ => [])
    (fun t ht => ⟨[], day_none hw hS runs hr hord d hd noLib he (Or.inl ht)
      (fun p hp e => by rw [← e]; exact hnone p hp (by rw [e]; exact ht))⟩) now rnd prefixes hallow
    (fun _ => 0)).2 (fun _ _ => rfl)⟩

/-- **C87.**  The same if on each day of the range the last run that came to its end, if there is one, had no valid record
(and is marked complete all the same, as `always_complete` asks): whatever earlier runs have stored, there is no data. -/
theorem C87_empty_days
    (w : Job) (ls : List (List Piece)) (hw : Daily w ls) (hfmt : w.format ≠ "text".toList)
    (first last : DateTime) (hf : Day first) (hl : Day last) (hle : first.seconds ≤ last.seconds)
    (days : List DateTime) (hdays : DaysOf first last days)
    (runs : List (DateTime × Run ρ)) (hok : ∀ p ∈ runs, Day p.1 ∧ p.2.OK (on w p.1))
    (hord : runs.Pairwise (fun a b => a.1 = b.1 → a.2.now.seconds < b.2.now.seconds))
    (d : Disk) (hd : ∀ t, (t ∈ days ∨ ∃ p ∈ runs, p.1 = t) → Fresh (folderOf ls t) d)
    (lib : Lib ρ) (hlib : ∀ p ∈ runs, Faithful p.2.config.codec lib p.2.records) (htr : ∀ p ∈ runs, ∀ x ∈ p.2.records, lib.truthy x = true)
    (hrows : ∀ t ∈ days, LastOf w runs t [])
    (now : DateTime) (rnd : Str) (prefixes : List Str) (hallow : Reader.allowed prefixes w.dataset = true) :
    ∃ d', afterDayRuns w d runs = .ok d' ∧
      Reader.openReader (rangeReader w first last prefixes) now rnd (diskBlobsAt d'.names) = .error .dataNotFound := by
  let S : DateTime → Prop := fun t => t ∈ days ∨ ∃ p ∈ runs, p.1 = t
  have hS : ∀ t, S t → Day t := by
    rintro t (h | ⟨p, hp, rfl⟩)
    · exact ((hdays.mem t).1 h).1
    · exact (hok p hp).1
  have hr : ∀ p ∈ runs, S p.1 ∧ p.2.OK (on w p.1) := fun p hp => ⟨Or.inr ⟨p, hp, rfl⟩, (hok p hp).2⟩
  obtain ⟨H', d', he, -⟩ := all_day_runs hw hS runs hr hord (fun _ => []) d
    ⟨by simp, by simp, fun t ht => (hd t ht).holds _, fun t ht => (hd t ht).tidy⟩ (by simp)
  exact ⟨d', he, (range_read hw hf hl hle hdays lib d' (fun _ => [])
    (fun t ht => day_read hw hfmt hS runs hr hord d hd lib hlib htr he (Or.inl ht) (hrows t ht)) now rnd prefixes hallow
    (fun _ => 0)).2 (fun _ _ => rfl)⟩

/-! ## Datasets with the usual folders -/

/-- The folders of a dataset with the usual partitions (`year_{yyyy}/month_{mm}/day_{dd}`). -/
def usualFolders (names : List Str) : List (List Piece) :=
  names.map (fun n => [.lit n]) ++
    [[.lit "year_".toList, .field .yyyy], [.lit "month_".toList, .field .mm], [.lit "day_".toList, .field .dd]]

theorem two_lt {a b : Nat} (ha : a < 100) (hb : b < 100) : two a < two b ↔ a < b := by
  have h := digits_lt [a / 10, a % 10] [b / 10, b % 10] (by simp; omega) (by simp; omega) rfl
  have e1 : digitsValue [a / 10, a % 10] = a := by simp [digitsValue]; omega
  have e2 : digitsValue [b / 10, b % 10] = b := by simp [digitsValue]; omega
  rw [e1, e2] at h
  exact h

theorem four_lt {a b : Nat} (ha : a < 10000) (hb : b < 10000) : four a < four b ↔ a < b := by
  have h := digits_lt [a / 1000, a / 100 % 10, a / 10 % 10, a % 10] [b / 1000, b / 100 % 10, b / 10 % 10, b % 10]
    (by simp; omega) (by simp; omega) rfl
  have e1 : digitsValue [a / 1000, a / 100 % 10, a / 10 % 10, a % 10] = a := by simp [digitsValue]; omega
  have e2 : digitsValue [b / 1000, b / 100 % 10, b / 10 % 10, b % 10] = b := by simp [digitsValue]; omega
  rw [e1, e2] at h
  exact h

theorem usual_filled (names : List Str) {t : DateTime} :
    (usualFolders names).map (filled t) = names ++ ["year_".toList ++ natStr t.year, "month_".toList ++ two t.month,
      "day_".toList ++ two t.day] := by
  unfold usualFolders
  rw [List.map_append, List.map_map]
  congr 1
  · conv_rhs => rw [← List.map_id names]
    apply List.map_congr_left
    intro n _
    simp [filled]
  · simp [filled, Field.text, Field.value]

theorem usual_base (names : List Str) (hne : names ≠ []) (w : Job) {t : DateTime} (ht : Day t) :
    (on w t).base (usualFolders names) = join ['/'] names ++ ("/year_".toList ++ (four t.year ++ ("/month_".toList ++
      (two t.month ++ ("/day_".toList ++ two t.day))))) := by
  unfold Job.base
  have hv := (DateTime.valid_iff t).1 ht.valid
  have hy := ht.year
  show join ['/'] ((usualFolders names).map (filled t)) = _
  rw [usual_filled, natStr_eq_four t.year hy (by omega)]
  have e : ∀ a b c : Str, names ++ [a, b, c] = ((names ++ [a]) ++ [b]) ++ [c] := by simp
  rw [e, join_snoc _ _ (by simp), join_snoc _ _ (by simp), join_snoc _ _ hne]
  simp [List.append_assoc]

/-- The name of a dataset: folders that are not special. -/
structure PlainNames (names : List Str) : Prop where
  ne : names ≠ []
  comp : ∀ n ∈ names, Comp n ∧ '{' ∉ n
  as_at : contains "as_at_".toList (join ['/'] names) = false
  by_ : contains "/by_".toList (join ['/'] names) = false
  backout : contains "BACKOUT".toList (join ['/'] names) = false
  complete : contains "/frame.complete".toList (join ['/'] names) = false

theorem digit_ne {c : Char} (hc : ∀ k < 10, digitChar k ≠ c) {s : Str} (h : c ∉ s) {l : List Nat} (hl : ∀ k ∈ l, k < 10) :
    c ∉ s ++ l.map digitChar := by
  intro hm
  rcases List.mem_append.1 hm with hm | hm
  · exact h hm
  · obtain ⟨k, hk, e⟩ := List.mem_map.1 hm
    exact hc k (hl k hk) e

/-- A text that begins with a slash is not in a path if it is in neither part and the second does not begin
with it. -/
theorem contains_sep {m a b : Str} (hm : '/' ∉ m) (ha : contains ('/' :: m) a = false) (hb : ¬ m <+: b)
    (hb' : contains ('/' :: m) b = false) : contains ('/' :: m) (a ++ '/' :: b) = false := by
  rw [contains_false]
  rintro ⟨x, y, e⟩
  rcases occ_sep hm e with ⟨z, hz⟩ | ⟨_, hz⟩ | ⟨z, _, hz⟩
  · exact contains_false.1 ha ⟨x, z, by rw [hz]⟩
  · exact hb ⟨y, hz.symm⟩
  · exact contains_false.1 hb' ⟨z, y, by rw [hz]⟩

/-- **C87.**  A dataset with the usual partitions has a folder for each day, in order. -/
theorem C87_usual_partitions (w : Job) (names : List Str) (hn : PlainNames names) (hds : w.dataset = join ['/'] names)
    (hparts : w.partitions = ["year_{yyyy}/month_{mm}/day_{dd}".toList]) : Daily w (usualFolders names) where
  ok t ht := by
    refine ⟨?_, ?_, ?_, ?_, ht⟩
    · intro l hl
      rcases List.mem_append.1 hl with hl | hl
      · obtain ⟨n, hm, rfl⟩ := List.mem_map.1 hl
        obtain ⟨⟨h1, h2, h3⟩, h4⟩ := hn.comp n hm
        refine ⟨?_, ?_, by simpa [template] using h1, by simpa [template] using h2⟩ <;>
          (intro s hs
           simp only [List.mem_cons, List.not_mem_nil, or_false, Piece.lit.injEq] at hs
           subst hs
           assumption)
      · simp only [List.mem_cons, List.not_mem_nil, or_false] at hl
        rcases hl with rfl | rfl | rfl <;>
          (refine ⟨?_, ?_, by decide, by decide⟩ <;>
            (intro s hs
             simp only [List.mem_cons, List.not_mem_nil, or_false, Piece.lit.injEq, reduceCtorEq] at hs
             subst hs
             decide))
    · simp [usualFolders]
    · show (if w.partitions = [] then w.dataset else w.dataset ++ ['/'] ++ join ['/'] w.partitions) = _
      rw [hparts, hds, if_neg (by simp)]
      have : (usualFolders names).map template = names ++ ["year_{yyyy}".toList, "month_{mm}".toList, "day_{dd}".toList] := by
        unfold usualFolders
        rw [List.map_append, List.map_map]
        congr 1
        · conv_rhs => rw [← List.map_id names]
          apply List.map_congr_left
          intro n _
          simp [template]
      rw [this]
      have e : ∀ a b c : Str, names ++ [a, b, c] = ((names ++ [a]) ++ [b]) ++ [c] := by simp
      rw [e, join_snoc _ _ (by simp), join_snoc _ _ (by simp), join_snoc _ _ hn.ne]
      simp [join]
    · show endsWith ['/'] w.dataset = false
      rw [hds]
      exact Mabel.ObjectStore.join_last (fun c hc => (hn.comp c hc).1) hn.ne
  plain t ht := by
    rw [usual_base names hn.ne w ht]
    have hv := (DateTime.valid_iff t).1 ht.valid
    have hdays := days_lt t.year t.month
    have hy : four t.year = [t.year / 1000, t.year / 100 % 10, t.year / 10 % 10, t.year % 10].map digitChar := rfl
    have h2 : ∀ n, two n = [n / 10, n % 10].map digitChar := fun _ => rfl
    have hly : ∀ k ∈ [t.year / 1000, t.year / 100 % 10, t.year / 10 % 10, t.year % 10], k < 10 := by simp; omega
    have hlm : ∀ k ∈ [t.month / 10, t.month % 10], k < 10 := by simp; omega
    have hld : ∀ k ∈ [t.day / 10, t.day % 10], k < 10 := by simp; omega
    have e : join ['/'] names ++ ("/year_".toList ++ (four t.year ++ ("/month_".toList ++
        (two t.month ++ ("/day_".toList ++ two t.day)))))
        = join ['/'] names ++ '/' :: (("year_".toList ++ four t.year) ++ '/' :: (("month_".toList ++ two t.month) ++
          '/' :: ("day_".toList ++ two t.day))) := by simp
    rw [e]
    have slashless : ∀ c : Char, (∀ k < 10, digitChar k ≠ c) → c ∉ "year_".toList → c ∉ "month_".toList →
        c ∉ "day_".toList → c ∉ "year_".toList ++ four t.year ∧ c ∉ "month_".toList ++ two t.month ∧
          c ∉ "day_".toList ++ two t.day := by
      intro c hc h3 h4 h5
      exact ⟨digit_ne hc h3 hly, digit_ne hc h4 hlm, digit_ne hc h5 hld⟩
    obtain ⟨s1, s2, s3⟩ := slashless 's' (by decide) (by decide) (by decide) (by decide)
    obtain ⟨b1, b2, b3⟩ := slashless 'B' (by decide) (by decide) (by decide) (by decide)
    obtain ⟨c1, c2, c3⟩ := slashless '/' (by decide) (by decide) (by decide) (by decide)
    have none1 : ∀ (m s : Str), '/' ∉ s → contains ('/' :: m) s = false :=
      fun m s hs => contains_of_not_mem (c := '/') (by simp) hs
    have sep : ∀ m : Str, '/' ∉ m → contains ('/' :: m) (join ['/'] names) = false → ¬ m.head? = some 'y' →
        ¬ m.head? = some 'm' → ¬ m.head? = some 'd' → m ≠ [] →
        contains ('/' :: m) (join ['/'] names ++ '/' :: (("year_".toList ++ four t.year) ++ '/' ::
          (("month_".toList ++ two t.month) ++ '/' :: ("day_".toList ++ two t.day)))) = false := by
      intro m hm h0 hy1 hm1 hd1 hne
      have head : ∀ (c : Char) (s : Str), ¬ m.head? = some c → ¬ m <+: c :: s := by
        rintro c s hc ⟨z, hz⟩
        cases m with
        | nil => exact hne rfl
        | cons a m =>
          simp at hz
          exact hc (by simp [hz.1])
      refine contains_sep hm h0 (head 'y' _ hy1) (contains_sep hm (none1 _ _ c1) (head 'm' _ hm1)
        (contains_sep hm (none1 _ _ c2) (head 'd' _ hd1) (none1 _ _ c3)))
    refine ⟨?_, ?_, ?_, ?_⟩
    · rw [← Bool.not_eq_true, contains_slash (by decide) (by decide), contains_slash (by decide) (by decide),
        contains_slash (by decide) (by decide), hn.as_at, contains_of_not_mem (c := 's') (by decide) s1,
        contains_of_not_mem (c := 's') (by decide) s2, contains_of_not_mem (c := 's') (by decide) s3]
      simp
    · exact sep "by_".toList (by decide) hn.by_ (by decide) (by decide) (by decide) (by decide)
    · rw [← Bool.not_eq_true, contains_slash (by decide) (by decide), contains_slash (by decide) (by decide),
        contains_slash (by decide) (by decide), hn.backout, contains_of_not_mem (c := 'B') (by decide) b1,
        contains_of_not_mem (c := 'B') (by decide) b2, contains_of_not_mem (c := 'B') (by decide) b3]
      simp
    · exact sep "frame.complete".toList (by decide) hn.complete (by decide) (by decide) (by decide) (by decide)
  day t ht := by
    unfold folderOf
    rw [usual_filled, usual_filled]
    rfl
  order s t hs ht hlt := by
    rw [usual_base names hn.ne w hs, usual_base names hn.ne w ht]
    have hv := (DateTime.valid_iff s).1 hs.valid
    have hv' := (DateTime.valid_iff t).1 ht.valid
    have hd1 := days_lt s.year s.month
    have hd2 := days_lt t.year t.month
    refine ⟨by simp [four, two], ?_⟩
    rw [hs.seconds_eq, ht.seconds_eq] at hlt
    have hnot : ¬ (t.year < s.year ∨ (t.year = s.year ∧ (t.month < s.month ∨ (t.month = s.month ∧ t.day ≤ s.day)))) := by
      intro h
      by_cases he : t.year = s.year ∧ t.month = s.month ∧ t.day = s.day
      · have : t.ordinal = s.ordinal := by
          unfold DateTime.ordinal
          rw [he.1, he.2.1, he.2.2]
        omega
      · have := DateTime.ordinal_lt_of_lex ht.valid hs.valid (by omega)
        omega
    refine (append_lt_append rfl).2 (Or.inr ⟨rfl, ?_⟩)
    refine (append_lt_append rfl).2 (Or.inr ⟨rfl, ?_⟩)
    refine (append_lt_append (by simp [four])).2 ?_
    by_cases h1 : s.year = t.year
    · refine Or.inr ⟨by rw [h1], (append_lt_append rfl).2 (Or.inr ⟨rfl, (append_lt_append (by simp [two])).2 ?_⟩)⟩
      by_cases h2 : s.month = t.month
      · refine Or.inr ⟨by rw [h2], (append_lt_append rfl).2 (Or.inr ⟨rfl, ?_⟩)⟩
        exact (two_lt (by omega) (by omega)).2 (by omega)
      · exact Or.inl ((two_lt (by omega) (by omega)).2 (by omega))
    · exact Or.inl ((four_lt (by omega) (by omega)).2 (by omega))

/-! ### A concrete history -/

theorem plain_names : PlainNames ["tests".toList, "data".toList] where
  ne := by decide
  comp := by
    intro n hn
    simp only [List.mem_cons, List.not_mem_nil, or_false] at hn
    rcases hn with rfl | rfl <;> exact ⟨⟨by decide, by decide, by decide⟩, by decide⟩
  as_at := by decide
  by_ := by decide
  backout := by decide
  complete := by decide

theorem daily : Daily zJob demoFolders :=
  C87_usual_partitions zJob ["tests".toList, "data".toList] plain_names (by decide) rfl

def feb28 : DateTime := ⟨2024, 2, 28, 0, 0, 0⟩
def feb29 : DateTime := ⟨2024, 2, 29, 0, 0, 0⟩
def mar1 : DateTime := ⟨2024, 3, 1, 0, 0, 0⟩

theorem feb28_day : Day feb28 := ⟨by decide, rfl, rfl, rfl, by decide⟩
theorem feb29_day : Day feb29 := ⟨by decide, rfl, rfl, rfl, by decide⟩
theorem mar1_day : Day mar1 := ⟨by decide, rfl, rfl, rfl, by decide⟩

/-- Three days over the end of a February. -/
theorem three_days : DaysOf feb28 mar1 [feb28, feb29, mar1] where
  mem t := by
    have o1 : feb28.seconds = 86400 * feb28.ordinal := feb28_day.seconds_eq
    have o2 : feb29.ordinal = feb28.ordinal + 1 := by decide +kernel
    have o3 : mar1.ordinal = feb28.ordinal + 2 := by decide +kernel
    have s2 := feb29_day.seconds_eq
    have s3 := mar1_day.seconds_eq
    simp only [List.mem_cons, List.not_mem_nil, or_false]
    constructor
    · rintro (rfl | rfl | rfl)
      · exact ⟨feb28_day, by omega, by omega⟩
      · exact ⟨feb29_day, by omega, by omega⟩
      · exact ⟨mar1_day, by omega, by omega⟩
    · rintro ⟨ht, h1, h2⟩
      have s := ht.seconds_eq
      by_cases c1 : t.seconds = feb28.seconds
      · exact Or.inl (ht.eq_of_seconds feb28_day c1)
      by_cases c2 : t.seconds = feb29.seconds
      · exact Or.inr (Or.inl (ht.eq_of_seconds feb29_day c2))
      · exact Or.inr (Or.inr (ht.eq_of_seconds mar1_day (by omega)))
  order := by decide +kernel

/-- A run for one day, two for another of which the first is stopped, and one for the first day that is
stopped. -/
def demoDayRuns : List (DateTime × Run (Fin 10)) := [(feb28, run1), (mar1, run2), (mar1, run3), (feb28, run4)]

theorem demo_day_fresh {t : DateTime} (ht : t ∈ [feb28, feb29, mar1]) : Fresh (folderOf demoFolders t) demoStart where
  normal := by decide +kernel
  nodup := by decide +kernel
  file := by
    have : ∀ t ∈ [feb28, feb29, mar1], ∀ q ∈ demoStart.names, q.comps.isPrefixOf (folderOf demoFolders t) = false ∧
        (folderOf demoFolders t).isPrefixOf q.comps = false := by decide +kernel
    intro q hq _
    obtain ⟨h1, h2⟩ := this t ht q hq
    constructor
    · intro hp
      rw [List.isPrefixOf_iff_prefix.2 hp] at h1
      cases h1
    · intro hp
      rw [List.isPrefixOf_iff_prefix.2 hp] at h2
      cases h2
  dir := nofun

theorem demo_on (t : DateTime) {r : Run (Fin 10)} (h : r.OK zJob) : r.OK (on zJob t) :=
  ⟨h.now, h.format, h.hex, h.order⟩

theorem demo_day_ok : ∀ p ∈ demoDayRuns, Day p.1 ∧ p.2.OK (on zJob p.1) := by
  intro p hp
  simp only [demoDayRuns, List.mem_cons, List.not_mem_nil, or_false] at hp
  rcases hp with rfl | rfl | rfl | rfl
  · exact ⟨feb28_day, demo_on _ <| demo_run_ok run1 (by simp)⟩
  · exact ⟨mar1_day, demo_on _ <| demo_run_ok run2 (by simp)⟩
  · exact ⟨mar1_day, demo_on _ <| demo_run_ok run3 (by simp)⟩
  · exact ⟨feb28_day, demo_on _ <| demo_run_ok run4 (by simp)⟩

theorem demo_day_start : ∀ t, (t ∈ [feb28, feb29, mar1] ∨ ∃ p ∈ demoDayRuns, p.1 = t) →
    Fresh (folderOf demoFolders t) demoStart := by
  rintro t (ht | ⟨p, hp, rfl⟩)
  · exact demo_day_fresh ht
  · refine demo_day_fresh ?_
    simp only [demoDayRuns, List.mem_cons, List.not_mem_nil, or_false] at hp
    rcases hp with rfl | rfl | rfl | rfl <;> simp

/-- The records of the three days. -/
def demoRows (t : DateTime) : List (Fin 10) := if t = feb28 then [4] else if t = mar1 then [1, 2, 3] else []

theorem demo_last : ∀ t ∈ [feb28, feb29, mar1], LastOf zJob demoDayRuns t (demoRows t) := by
  intro t ht
  simp only [List.mem_cons, List.not_mem_nil, or_false] at ht
  rcases ht with rfl | rfl | rfl
  · refine Or.inl ⟨[], run1, [(mar1, run2), (mar1, run3), (feb28, run4)], rfl,
      (ended_iff ⟨rfl, Or.inl (by decide)⟩).2 (by decide +kernel), ?_, by decide⟩
    intro p hp e
    simp only [List.mem_cons, List.not_mem_nil, or_false] at hp
    rcases hp with rfl | rfl | rfl
    · exact absurd e (by decide)
    · exact absurd e (by decide)
    · rw [ended_iff ⟨rfl, Or.inl (by decide)⟩]
      decide +kernel
  · refine Or.inr ⟨?_, by decide⟩
    intro p hp e
    simp only [demoDayRuns, List.mem_cons, List.not_mem_nil, or_false] at hp
    rcases hp with rfl | rfl | rfl | rfl <;> exact absurd e (by decide)
  · refine Or.inl ⟨[(feb28, run1), (mar1, run2)], run3, [(feb28, run4)], rfl,
      (ended_iff ⟨rfl, Or.inl (by decide)⟩).2 (by decide +kernel), ?_, by decide⟩
    intro p hp e
    simp only [List.mem_cons, List.not_mem_nil, or_false] at hp
    rw [hp] at e
    exact absurd e (by decide)

/-- Non-vacuity: every hypothesis of `C87_range_is_read` holds of these runs. -/
example : ∃ d' l, afterDayRuns zJob demoStart demoDayRuns = .ok d' ∧
    Reader.openReader (rangeReader zJob feb28 mar1 ["tests/".toList]) ⟨2024, 5, 5, 0, 0, 0⟩ [] (diskBlobsAt d'.names)
      = .ok (0, l) ∧
    delivered (fun _ => 0) Mabel.Blobs.demoLib' {} (read d') l = [.row 4, .row 1, .row 2, .row 3] :=
  C87_range_is_read zJob demoFolders daily (by decide) feb28 mar1 feb28_day mar1_day (by decide +kernel)
    [feb28, feb29, mar1] three_days demoDayRuns demo_day_ok (by decide +kernel) demoStart demo_day_start Mabel.Blobs.demoLib'
    (by
      intro p hp
      simp only [demoDayRuns, List.mem_cons, List.not_mem_nil, or_false] at hp
      rcases hp with rfl | rfl | rfl | rfl <;> exact Mabel.Blobs.demo_faithful _)
    (fun _ _ _ _ => rfl) demoRows demo_last ⟨feb28, by simp, by decide⟩ ⟨2024, 5, 5, 0, 0, 0⟩ [] ["tests/".toList] (by decide)
    (fun _ => 0)

/-- Non-vacuity: a later run without records, marked complete, takes the place of one with three. -/
example : ∃ d' l, afterDayRuns zJob demoStart [(mar1, run3), (feb28, run1), (mar1, emptyRun)] = .ok d' ∧
    Reader.openReader (rangeReader zJob feb28 mar1 ["tests/".toList]) ⟨2024, 5, 5, 0, 0, 0⟩ [] (diskBlobsAt d'.names)
      = .ok (0, l) ∧
    delivered (fun _ => 0) Mabel.Blobs.demoLib' {} (read d') l = [.row 4] :=
  C87_range_is_read zJob demoFolders daily (by decide) feb28 mar1 feb28_day mar1_day (by decide +kernel)
    [feb28, feb29, mar1] three_days [(mar1, run3), (feb28, run1), (mar1, emptyRun)]
    (by
      intro p hp
      simp only [List.mem_cons, List.not_mem_nil, or_false] at hp
      rcases hp with rfl | rfl | rfl
      · exact ⟨mar1_day, demo_on _ <| demo_run_ok run3 (by simp)⟩
      · exact ⟨feb28_day, demo_on _ <| demo_run_ok run1 (by simp)⟩
      · exact ⟨mar1_day, demo_on _ empty_run_ok⟩) (by decide +kernel) demoStart
    (by
      rintro t (ht | ⟨p, hp, rfl⟩)
      · exact demo_day_fresh ht
      · refine demo_day_fresh ?_
        simp only [List.mem_cons, List.not_mem_nil, or_false] at hp
        rcases hp with rfl | rfl | rfl <;> simp) Mabel.Blobs.demoLib'
    (by
      intro p hp
      simp only [List.mem_cons, List.not_mem_nil, or_false] at hp
      rcases hp with rfl | rfl | rfl <;> exact Mabel.Blobs.demo_faithful _)
    (fun _ _ _ _ => rfl) (fun t => if t = feb28 then [4] else [])
    (by
      intro t ht
      simp only [List.mem_cons, List.not_mem_nil, or_false] at ht
      rcases ht with rfl | rfl | rfl
      · refine Or.inl ⟨[(mar1, run3)], run1, [(mar1, emptyRun)], rfl, (ended_iff ⟨rfl, Or.inl (by decide)⟩).2 (by decide +kernel), ?_,
          by decide⟩
        intro p hp e
        rw [List.mem_singleton.1 hp] at e
        exact absurd e (by decide)
      · refine Or.inr ⟨?_, rfl⟩
        intro p hp e
        simp only [List.mem_cons, List.not_mem_nil, or_false] at hp
        rcases hp with rfl | rfl | rfl <;> exact absurd e (by decide)
      · exact Or.inl ⟨[(mar1, run3), (feb28, run1)], emptyRun, [], rfl, (ended_iff ⟨rfl, Or.inr rfl⟩).2 (by decide +kernel), by simp,
          by decide⟩)
    ⟨feb28, by simp, by decide⟩ ⟨2024, 5, 5, 0, 0, 0⟩ [] ["tests/".toList] (by decide) (fun _ => 0)

/-- Non-vacuity: the same, for a reader of that day only. -/
example : ∃ d', afterDayRuns zJob demoStart [(mar1, run3), (mar1, emptyRun)] = .ok d' ∧
    Reader.openReader (rangeReader zJob mar1 mar1 ["tests/".toList]) ⟨2024, 5, 5, 0, 0, 0⟩ [] (diskBlobsAt d'.names)
      = .error .dataNotFound :=
  C87_empty_days zJob demoFolders daily (by decide) mar1 mar1 mar1_day mar1_day (Nat.le_refl _)
    [mar1] ⟨by
      intro t
      simp only [List.mem_singleton]
      exact ⟨by rintro rfl; exact ⟨mar1_day, Nat.le_refl _, Nat.le_refl _⟩,
        fun ⟨ht, h1, h2⟩ => ht.eq_of_seconds mar1_day (Nat.le_antisymm h2 h1)⟩, by simp⟩ [(mar1, run3), (mar1, emptyRun)]
    (by
      intro p hp
      simp only [List.mem_cons, List.not_mem_nil, or_false] at hp
      rcases hp with rfl | rfl
      · exact ⟨mar1_day, demo_on _ <| demo_run_ok run3 (by simp)⟩
      · exact ⟨mar1_day, demo_on _ empty_run_ok⟩) (by decide +kernel) demoStart
    (by
      rintro t (ht | ⟨p, hp, rfl⟩)
      · exact demo_day_fresh (by rw [List.mem_singleton.1 ht]; simp)
      · refine demo_day_fresh ?_
        simp only [List.mem_cons, List.not_mem_nil, or_false] at hp
        rcases hp with rfl | rfl <;> simp) Mabel.Blobs.demoLib'
    (by
      intro p hp
      simp only [List.mem_cons, List.not_mem_nil, or_false] at hp
      rcases hp with rfl | rfl <;> exact Mabel.Blobs.demo_faithful _)
    (fun _ _ _ _ => rfl)
    (by
      intro t ht
      rw [List.mem_singleton.1 ht]
      exact Or.inl ⟨[(mar1, run3)], emptyRun, [], rfl, (ended_iff ⟨rfl, Or.inr rfl⟩).2 (by decide +kernel), by simp, by decide⟩)
    ⟨2024, 5, 5, 0, 0, 0⟩ [] ["tests/".toList] (by decide)

/-- Non-vacuity: the reader of a single day on which nothing was finished. -/
example : ∃ d', afterDayRuns zJob demoStart [(feb29, run2)] = .ok d' ∧
    Reader.openReader (rangeReader zJob feb29 feb29 ["tests/".toList]) ⟨2024, 5, 5, 0, 0, 0⟩ [] (diskBlobsAt d'.names)
      = .error .dataNotFound :=
  C87_nothing_finished zJob demoFolders daily feb29 feb29 feb29_day feb29_day (by decide) [feb29]
    ⟨by
      intro t
      simp only [List.mem_singleton]
      exact ⟨by rintro rfl; exact ⟨feb29_day, Nat.le_refl _, Nat.le_refl _⟩,
        fun ⟨ht, h1, h2⟩ => ht.eq_of_seconds feb29_day (Nat.le_antisymm h2 h1)⟩, by simp⟩
    [(feb29, run2)] (by simpa using ⟨feb29_day, demo_on _ <| demo_run_ok run2 (by simp)⟩) (by simp)
    (by
      intro p hp _
      rw [List.mem_singleton.1 hp, ended_iff ⟨rfl, Or.inl (by decide)⟩]
      decide +kernel)
    demoStart
    (by
      rintro t (ht | ⟨p, hp, rfl⟩)
      · exact demo_day_fresh (by rw [List.mem_singleton.1 ht]; simp)
      · rw [List.mem_singleton.1 hp]; exact demo_day_fresh (by simp))
    ⟨2024, 5, 5, 0, 0, 0⟩ [] ["tests/".toList] (by decide)

end Mabel.History
