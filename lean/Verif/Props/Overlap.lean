import Verif.Lemmas.Overlap
import Verif.Props.Cloud

/-!
# Runs that overlap, and reading while they are under way: C98
-/

namespace Mabel.Overlap
open Mabel.Py Mabel.Paths Mabel.Naming Mabel.Spec Mabel.Listing
open Mabel.Disk hiding Bytes
open Mabel.History (Run on Day Daily folderOf Fresh Kept afterDayRuns afterRun blobsOf DaysOf rangeReader DayRead)
open Mabel.StreamStorage (share)
open Mabel.Cloud (DayMem range_open_mem)
open Mabel.EndToEnd (nameOf)
open Mabel.Blobs (Lib Faithful delivered Item readBlob Names)
variable {ρ : Type}

theorem share_take (steps : List (Nat × Op)) {k f : Nat} (h : k ≤ f) (i : Nat) :
    share (steps.take k) i <+: share (steps.take f) i := by
  have : steps.take k <+: steps.take f := List.take_prefix_take_left h
  obtain ⟨z, hz⟩ := this
  rw [← hz, share_append]
  exact List.prefix_append _ _

theorem Taken.take {w : Job} {runs : List (DateTime × Run ρ)} {steps : List (Nat × Op)} (h : Taken w runs steps) (k : Nat) :
    Taken w runs (steps.take k) := by
  refine ⟨fun i p hp => ?_, fun x hx => h.2 x (List.mem_of_mem_take hx)⟩
  obtain ⟨ops, h1, h2⟩ := h.1 i p hp
  refine ⟨ops, h1, List.IsPrefix.trans ?_ h2⟩
  have : steps.take k <+: steps := List.take_prefix _ _
  obtain ⟨z, hz⟩ := this
  conv_rhs => rw [← hz, share_append]
  exact List.prefix_append _ _

/-- What is done stays done. -/
theorem Done.later {w : Job} {runs : List (DateTime × Run ρ)} {steps : List (Nat × Op)} (ht : Taken w runs steps) {k f : Nat} (h : k ≤ f)
    {i : Nat} (hd : Done w runs (steps.take k) i) : Done w runs (steps.take f) i := by
  obtain ⟨p, hp, h1, h2⟩ := hd
  obtain ⟨ops, h3, h4⟩ := (ht.take f).1 i p hp
  refine ⟨p, hp, h1, ?_⟩
  have : ops = share (steps.take k) i := Except.ok.inj (h3.symm.trans h2)
  rw [h3]
  congr 1
  rw [this] at h4 ⊢
  exact ((share_take steps h i).eq_of_length_le h4.length_le)

theorem split_at {α : Type} {l : List α} {i : Nat} {a : α} (h : l[i]? = some a) : l = l.take i ++ a :: l.drop (i + 1) := by
  obtain ⟨hi, rfl⟩ := List.getElem?_eq_some_iff.1 h
  rw [← List.drop_eq_getElem_cons, List.take_append_drop]

/-- What is listed of a day at a moment, and what is read of it at a later one. -/
theorem day_at {w : Job} {ls : List (List Piece)} (hw : Daily w ls) (hfmt : w.format ≠ "text".toList)
    {S : DateTime → Prop} (hS : ∀ t, S t → Day t)
    (runs : List (DateTime × Run ρ)) (hr : ∀ p ∈ runs, S p.1 ∧ p.2.OK (on w p.1))
    (hord : runs.Pairwise (fun a b => a.1 = b.1 → a.2.now.seconds < b.2.now.seconds))
    (d : Disk) (hd : ∀ t, S t → Fresh (folderOf ls t) d)
    (lib : Lib ρ) (hl : ∀ p ∈ runs, Faithful p.2.config.codec lib p.2.records)
    (htr : ∀ p ∈ runs, ∀ x ∈ p.2.records, lib.truthy x = true)
    (steps : List (Nat × Op)) (ht : Taken w runs steps) (disks : Nat → Disk) (hdisks : ∀ k, diskAt d steps k = .ok (disks k))
    {t : DateTime} (hSt : S t) (k : Nat) {rows : List ρ} (hrows : Rows w runs (steps.take k) t rows)
    (blobs : Posix → List Str) (hblobs : blobs ⟨[], folderOf ls t⟩ = diskBlobsAt (disks k).names ⟨[], folderOf ls t⟩) :
    ∃ names, DayMem w ls blobs t names ∧ (names = [] ↔ rows = []) ∧
      ∀ f : Str → Nat, (∀ x, k ≤ f x) → names.flatMap (fun x => readBlob lib {} x (read (disks (f x)) x)) = rows.map .row := by
  -- the runs one after the other, as far as they are at each moment
  have hseq : ∀ k, ∃ d'', afterDayRuns w d (stopped runs (steps.take k)) = .ok d'' ∧
      (∀ q, q ∈ (disks k).names ↔ q ∈ d''.names) ∧ ∀ x, read (disks k) x = read d'' x := by
    intro k
    obtain ⟨d', d'', h1, h2, h3, h4⟩ := as_in_turn hw hS runs hr hord d hd (steps.take k) (ht.take k)
    have : d' = disks k := Except.ok.inj (h1.symm.trans (hdisks k))
    subst this
    exact ⟨d'', h2, h3, h4⟩
  have hr' : ∀ k, ∀ p ∈ stopped runs (steps.take k), S p.1 ∧ p.2.OK (on w p.1) := by
    intro k q hq
    obtain ⟨p, hp, i, -, rfl⟩ := stopped_mem hq
    obtain ⟨h1, h2⟩ := hr p hp
    exact ⟨h1, ⟨h2.now, h2.format, h2.hex, h2.order⟩⟩
  have hord' : ∀ k, (stopped runs (steps.take k)).Pairwise (fun a b => a.1 = b.1 → a.2.now.seconds < b.2.now.seconds) :=
    fun k => stopped_pairwise hord
  have hl' : ∀ k, ∀ p ∈ stopped runs (steps.take k), Faithful p.2.config.codec lib p.2.records := by
    intro k q hq
    obtain ⟨p, hp, i, -, rfl⟩ := stopped_mem hq
    exact hl p hp
  have htr' : ∀ k, ∀ p ∈ stopped runs (steps.take k), ∀ x ∈ p.2.records, lib.truthy x = true := by
    intro k q hq
    obtain ⟨p, hp, i, -, rfl⟩ := stopped_mem hq
    exact htr p hp
  have hk0 : Kept w ls S (fun _ => []) d :=
    ⟨by simp, by simp, fun t ht => (hd t ht).holds _, fun t ht => (hd t ht).tidy⟩
  obtain ⟨d'', he, hnames, hread⟩ := hseq k
  -- what is listed then
  have hmem : ∀ {rows : List ρ} {names : List Str}, DayRead w ls lib d'' t rows names → DayMem w ls blobs t names := by
    intro rows names h
    obtain ⟨cl, h1, h2⟩ := h.listed
    obtain ⟨H', d3, he', -, hk, -⟩ := History.all_day_runs hw hS _ (hr' k) (hord' k) _ d hk0 (by simp)
    have : d3 = d'' := Except.ok.inj (he'.symm.trans he)
    subst this
    have hok := hw.ok t (hS t hSt).valid
    obtain ⟨l1, k1, k2⟩ := cycle_history hok (hw.plain t (hS t hSt)) (hk.valid t hSt) (hk.hex t hSt) (hk.holds t hSt)
    obtain ⟨l2, k3, k4⟩ := cycle_history hok (hw.plain t (hS t hSt)) (hk.valid t hSt) (hk.hex t hSt)
      (files := (disks k).names)
      ⟨fun q hq => (hk.holds t hSt).normal q ((hnames q).1 hq), fun q => by rw [hnames]; exact (hk.holds t hSt).beneath_iff q⟩
    refine ⟨⟨l2, by rw [hblobs]; exact k3, fun x => ?_⟩, h.order, h.beneath, h.readable⟩
    have e : cl = l1 := Except.ok.inj (h1.symm.trans k1)
    rw [k4, ← k2, ← e, h2.mem_iff]
  rcases hrows with ⟨i, r, hi, hdone, rfl, hlater⟩ | ⟨hnone, rfl⟩
  · -- the last run that is done
    have hgood : ∀ f, k ≤ f → ∀ d'', afterDayRuns w d (stopped runs (steps.take f)) = .ok d'' →
        (∀ p ∈ blobsOf r, read d'' (nameOf (on w t) ls r.now p.1) = .ok p.2) ∧
        ((∀ j r', i < j → runs[j]? = some (t, r') → ¬ Done w runs (steps.take f) j) →
          DayRead w ls lib d'' t (r.records.filter r.config.valid) (((blobsOf r).map Prod.fst).map (nameOf (on w t) ls r.now))) := by
      intro f hf d'' he
      have hg : (stopped runs (steps.take f))[i]? = some (t, { r with stop := (share (steps.take f) i).length }) := by
        rw [stopped_get, hi]; rfl
      have hsp := split_at hg
      have hfin : ({ r with stop := (share (steps.take f) i).length } : Run ρ).Finished (on w t) :=
        (stopped_finished (ht.take f) hi).2 (hdone.later ht hf)
      have h1 := hr' f
      have h2 := hord' f
      have h3 := hl' f
      have h4 := htr' f
      rw [hsp] at h1 h2 h3 h4 he
      obtain ⟨g1, g2⟩ := History.day_read_of hw hfmt hS _ _ t _ h1 h2 d hd lib h3 h4 he hfin
      refine ⟨g1, fun hlater => g2 ?_⟩
      intro q hq hqt hqf
      obtain ⟨j, hj⟩ := List.mem_iff_getElem?.1 hq
      rw [List.getElem?_drop, stopped_get] at hj
      cases hp : runs[i + 1 + j]? with
      | none => rw [hp] at hj; cases hj
      | some p =>
        rw [hp] at hj
        have hj := Option.some.inj hj
        subst hj
        have hpt : p.1 = t := hqt
        refine hlater (i + 1 + j) p.2 (by omega) (by rw [hp, ← hpt]) ((stopped_finished (ht.take f) hp).1 ?_)
        rw [hpt]
        exact hqf
    obtain ⟨g1, g2⟩ := hgood k (Nat.le_refl _) d'' he
    have hday := g2 hlater
    refine ⟨_, hmem hday, hday.empty, ?_⟩
    intro f hf
    rw [← hday.delivers]
    apply List.flatMap_congr
    intro x hx
    obtain ⟨id, hid, rfl⟩ := List.mem_map.1 hx
    obtain ⟨p, hp, rfl⟩ := List.mem_map.1 hid
    obtain ⟨d3, he3, -, hread3⟩ := hseq (f (nameOf (on w t) ls r.now p.1))
    rw [hread3, (hgood _ (hf _) d3 he3).1 p hp, g1 p hp]
  · have hday := History.day_none hw hS _ (hr' k) (hord' k) d hd lib he hSt (by
      intro q hq hqt hqf
      obtain ⟨p, -, i, hp, rfl⟩ := stopped_mem hq
      have hpt : p.1 = t := hqt
      refine hnone i p.2 (by rw [hp, ← hpt]) ((stopped_finished (ht.take k) hp).1 ?_)
      rw [hpt]
      exact hqf)
    exact ⟨[], hmem hday, by simp, fun _ _ => rfl⟩

/-- **C98.**  Any number of runs of batch writers, each for a day of its own, that may overlap in time in any way: their
steps on the disk are taken in any order in which each takes its own in order, and each may die after any of them.  No
step fails; and a reader of a range of days that lists each of the folders at any moment while all this goes on, and
reads each blob at any later moment, delivers, day after day, exactly the records that were valid for the last run of the
day (in the order in which the runs began) that was done when the folder of the day was listed: each once, in the order
they were appended, and nothing of a run that is not done; if there is none, it says that there is no data.  What is
missing: a listing of one folder that takes its time, for which this is false (`C98_torn_listing_fails`). -/
theorem C98_read_while_written_partial
    -- the dataset, and the format
    (w : Job) (ls : List (List Piece)) (hw : Daily w ls) (hfmt : w.format ≠ "text".toList)
    -- the reader
    (first last : DateTime) (hf : Day first) (hl : Day last) (hle : first.seconds ≤ last.seconds)
    (days : List DateTime) (hdays : DaysOf first last days)
    -- the runs, each with its day, in the order in which they begin; no two of a day in the same second
    (runs : List (DateTime × Run ρ)) (hok : ∀ p ∈ runs, Day p.1 ∧ p.2.OK (on w p.1))
    (hord : runs.Pairwise (fun a b => a.1 = b.1 → a.2.now.seconds < b.2.now.seconds))
    -- the disk before: nothing in the folders of these days
    (d : Disk) (hd : ∀ t, (t ∈ days ∨ ∃ p ∈ runs, p.1 = t) → Fresh (folderOf ls t) d)
    -- the libraries; no record is empty (see C70)
    (lib : Lib ρ) (hlib : ∀ p ∈ runs, Faithful p.2.config.codec lib p.2.records)
    (htr : ∀ p ∈ runs, ∀ x ∈ p.2.records, lib.truthy x = true)
    -- the steps they take, in whatever order
    (steps : List (Nat × Op)) (ht : Taken w runs steps)
    (now : DateTime) (rnd : Str) (prefixes : List Str) (hallow : Reader.allowed prefixes w.dataset = true)
    (hash : Str → Nat) :
    ∃ disks : Nat → Disk, (∀ k, diskAt d steps k = .ok (disks k)) ∧
      -- when each folder is listed, and each blob read
      ∀ (lists : Posix → Nat) (reads : Str → Nat), (∀ t ∈ days, ∀ x, lists ⟨[], folderOf ls t⟩ ≤ reads x) →
      -- the records of each day when its folder is listed
      ∀ rows : DateTime → List ρ, (∀ t ∈ days, Rows w runs (steps.take (lists ⟨[], folderOf ls t⟩)) t (rows t)) →
      ((∃ t ∈ days, rows t ≠ []) →
        ∃ l, Reader.openReader (rangeReader w first last prefixes) now rnd (blobsAt disks lists) = .ok (0, l) ∧
          delivered hash lib {} (readAt disks reads) l = (days.flatMap rows).map .row) ∧
      ((∀ t ∈ days, rows t = []) →
        Reader.openReader (rangeReader w first last prefixes) now rnd (blobsAt disks lists) = .error .dataNotFound) := by
  let S : DateTime → Prop := fun t => t ∈ days ∨ ∃ p ∈ runs, p.1 = t
  have hS : ∀ t, S t → Day t := by
    rintro t (h | ⟨p, hp, rfl⟩)
    · exact ((hdays.mem t).1 h).1
    · exact (hok p hp).1
  have hr : ∀ p ∈ runs, S p.1 ∧ p.2.OK (on w p.1) := fun p hp => ⟨Or.inr ⟨p, hp, rfl⟩, (hok p hp).2⟩
  have hex : ∀ k, ∃ d', diskAt d steps k = .ok d' := by
    intro k
    obtain ⟨d', d'', h1, -⟩ := as_in_turn hw hS runs hr hord d hd (steps.take k) (ht.take k)
    exact ⟨d', h1⟩
  choose disks hdisks using hex
  refine ⟨disks, hdisks, ?_⟩
  intro lists reads hlater rows hrows
  have hday : ∀ t, ∃ names, t ∈ days → DayMem w ls (blobsAt disks lists) t names ∧ (names = [] ↔ rows t = []) ∧
      ∀ f : Str → Nat, (∀ x, lists ⟨[], folderOf ls t⟩ ≤ f x) →
        names.flatMap (fun x => readBlob lib {} x (read (disks (f x)) x)) = (rows t).map .row := by
    intro t
    by_cases h : t ∈ days
    · obtain ⟨names, hn⟩ := day_at hw hfmt hS runs hr hord d hd lib hlib htr steps ht disks hdisks (Or.inl h) _ (hrows t h)
        (blobsAt disks lists) rfl
      exact ⟨names, fun _ => hn⟩
    · exact ⟨[], fun h' => absurd h' h⟩
  choose names hnames using hday
  obtain ⟨l, hopen, hdel⟩ := range_open_mem (ρ := ρ) hw hf hl hle hdays (blobsAt disks lists) names
    (fun t h => (hnames t h).1) now rnd prefixes hallow
  constructor
  · rintro ⟨t, h, hne⟩
    refine ⟨l, ?_, ?_⟩
    · rw [hopen, if_neg]
      intro e
      exact hne ((hnames t h).2.1.1 ((List.flatMap_eq_nil_iff.1 e) t h))
    · rw [hdel, List.map_flatMap]
      apply List.flatMap_congr
      intro u hu
      exact (hnames u hu).2.2 reads (hlater u hu)
  · intro hall
    rw [hopen, if_pos]
    rw [List.flatMap_eq_nil_iff]
    intro t h
    exact (hnames t h).2.1.2 (hall t h)

/-! ## A concrete case -/

open Mabel.History (run1 run2 run3 feb28 feb29 mar1 feb28_day mar1_day three_days daily demoStart demo_day_fresh demo_on demo_run_ok)
open Mabel.EndToEnd (zJob)
open Mabel.Naming (demoFolders)

/-- The steps of a run for the first of March. -/
def demoOps (r : Run (Fin 10)) : List Op := ((r.ops (on zJob mar1)).toOption).getD []

theorem demo_ops {r : Run (Fin 10)} (h : (r.ops (on zJob mar1)).toOption.isSome = true) : r.ops (on zJob mar1) = .ok (demoOps r) := by
  unfold demoOps
  cases hr : r.ops (on zJob mar1) with
  | error e => rw [hr] at h; cases h
  | ok ops => rfl

/-- Two runs for the same day: the second begins and ends while the first is under way. -/
def demoRuns : List (DateTime × Run (Fin 10)) := [(mar1, run2), (mar1, run3)]

def demoSteps : List (Nat × Op) :=
  ((demoOps run2).take 20).map (fun o => (0, o)) ++ ((demoOps run3).map (fun o => (1, o)) ++
    ((demoOps run2).drop 20).map (fun o => (0, o)))

theorem demo_taken : Taken zJob demoRuns demoSteps := by
  refine ⟨?_, ?_⟩
  · intro i p hp
    match i, hp with
    | 0, hp =>
      cases hp
      refine ⟨_, demo_ops (by decide +kernel), ?_⟩
      rw [demoSteps, share_append, share_append, share_map, share_map, share_map]
      simp
    | 1, hp =>
      cases hp
      refine ⟨_, demo_ops (by decide +kernel), ?_⟩
      rw [demoSteps, share_append, share_append, share_map, share_map, share_map]
      simp
  · intro x hx
    simp only [demoSteps, List.mem_append, List.mem_map] at hx
    show x.1 < 2
    rcases hx with ⟨o, -, rfl⟩ | ⟨o, -, rfl⟩ | ⟨o, -, rfl⟩ <;> simp

theorem demo_len : (demoOps run3).length = 29 ∧ (demoOps run2).length = 29 := by decide +kernel

/-- When the second run has taken its last step, it is done and the first is not. -/
theorem demo_share : share (demoSteps.take 49) 1 = demoOps run3 ∧ (share (demoSteps.take 49) 0).length = 20 ∧
    share (demoSteps.take 30) 1 = (demoOps run3).take 10 ∧ (share (demoSteps.take 30) 0).length = 20 := by
  have h1 : (((demoOps run2).take 20).map (fun o => ((0 : Nat), o))).length = 20 := by simp [demo_len]
  have e1 : demoSteps.take 49 = ((demoOps run2).take 20).map (fun o => (0, o)) ++ (demoOps run3).map (fun o => (1, o)) := by
    unfold demoSteps
    rw [← List.append_assoc, List.take_left' (by simp [demo_len])]
  have e2 : demoSteps.take 30 = ((demoOps run2).take 20).map (fun o => (0, o)) ++ ((demoOps run3).take 10).map (fun o => (1, o)) := by
    unfold demoSteps
    rw [List.take_append, h1, List.take_of_length_le (by rw [h1]; omega)]
    congr 1
  rw [e1, e2]
  simp only [share_append, share_map]
  simp [demo_len]

theorem demo_start : ∀ t, (t ∈ [feb28, feb29, mar1] ∨ ∃ p ∈ demoRuns, p.1 = t) → Fresh (folderOf demoFolders t) demoStart := by
  rintro t (ht | ⟨p, hp, rfl⟩)
  · exact demo_day_fresh ht
  · refine demo_day_fresh ?_
    simp only [demoRuns, List.mem_cons, List.not_mem_nil, or_false] at hp
    rcases hp with rfl | rfl <;> simp

theorem demo_runs_ok : ∀ p ∈ demoRuns, Day p.1 ∧ p.2.OK (on zJob p.1) := by
  intro p hp
  simp only [demoRuns, List.mem_cons, List.not_mem_nil, or_false] at hp
  rcases hp with rfl | rfl
  · exact ⟨mar1_day, demo_on _ <| demo_run_ok run2 (by simp)⟩
  · exact ⟨mar1_day, demo_on _ <| demo_run_ok run3 (by simp)⟩

theorem demo_other_day {t : DateTime} (ht : t ≠ mar1) (steps : List (Nat × Op)) : Rows zJob demoRuns steps t [] := by
  refine Or.inr ⟨?_, rfl⟩
  intro j r' hj
  have := List.mem_of_getElem? hj
  simp only [demoRuns, List.mem_cons, List.not_mem_nil, or_false, Prod.mk.injEq] at this
  rcases this with ⟨rfl, -⟩ | ⟨rfl, -⟩ <;> exact absurd rfl ht

/-- What is done after 49 steps, and after 30. -/
theorem demo_rows49 : Rows zJob demoRuns (demoSteps.take 49) mar1 [1, 2, 3] := by
  refine Or.inl ⟨1, run3, rfl, ⟨_, rfl, ⟨rfl, Or.inl (by decide)⟩, ?_⟩, by decide, ?_⟩
  · rw [demo_share.1]
    exact demo_ops (by decide +kernel)
  · intro j r' hj hr'
    have := (List.getElem?_eq_some_iff.1 hr').1
    simp only [demoRuns, List.length_cons, List.length_nil] at this
    omega

theorem demo_rows30 : Rows zJob demoRuns (demoSteps.take 30) mar1 [] := by
  refine Or.inr ⟨?_, rfl⟩
  rintro j r' hj ⟨p, hp, -, h⟩
  match j, hj with
  | 0, hj =>
    cases hp
    rw [demo_ops (by decide +kernel)] at h
    have := congrArg List.length (Except.ok.inj h)
    rw [demo_share.2.2.2, demo_len.2] at this
    omega
  | 1, hj =>
    cases hp
    rw [demo_ops (by decide +kernel)] at h
    have := congrArg List.length (Except.ok.inj h)
    rw [demo_share.2.2.1, List.length_take, demo_len.1] at this
    omega

/-- Non-vacuity: a reader that lists when the second run is done and reads when the first is, too, delivers what the
second has stored; one that lists before either is done says that there is no data. -/
example : ∃ disks : Nat → Disk, (∀ k, diskAt demoStart demoSteps k = .ok (disks k)) ∧
    (∃ l, Reader.openReader (rangeReader zJob feb28 mar1 ["tests/".toList]) ⟨2024, 5, 5, 0, 0, 0⟩ [] (blobsAt disks (fun _ => 49))
        = .ok (0, l) ∧
      delivered (fun _ => 0) Mabel.Blobs.demoLib' {} (readAt disks (fun _ => 58)) l = [.row 1, .row 2, .row 3]) ∧
    Reader.openReader (rangeReader zJob feb28 mar1 ["tests/".toList]) ⟨2024, 5, 5, 0, 0, 0⟩ [] (blobsAt disks (fun _ => 30))
      = .error .dataNotFound := by
  obtain ⟨disks, h1, h2⟩ := C98_read_while_written_partial zJob demoFolders daily (by decide) feb28 mar1 feb28_day mar1_day (by decide +kernel)
    [feb28, feb29, mar1] three_days demoRuns demo_runs_ok (by decide +kernel) demoStart demo_start Mabel.Blobs.demoLib'
    (by
      intro p hp
      simp only [demoRuns, List.mem_cons, List.not_mem_nil, or_false] at hp
      rcases hp with rfl | rfl <;> exact Mabel.Blobs.demo_faithful _)
    (fun _ _ _ _ => rfl) demoSteps demo_taken ⟨2024, 5, 5, 0, 0, 0⟩ [] ["tests/".toList] (by decide) (fun _ => 0)
  refine ⟨disks, h1, ?_, ?_⟩
  · exact (h2 (fun _ => 49) (fun _ => 58) (by simp) (fun t => if t = mar1 then [1, 2, 3] else []) (by
      intro t _
      by_cases h : t = mar1
      · subst h; exact demo_rows49
      · simp only [if_neg h]; exact demo_other_day h _)).1 ⟨mar1, by simp, by simp⟩
  · exact (h2 (fun _ => 30) (fun _ => 58) (by simp) (fun t => []) (by
      intro t _
      by_cases h : t = mar1
      · subst h; exact demo_rows30
      · exact demo_other_day h _)).2 (fun _ _ => rfl)

/-! ## What does not hold -/

/-- The steps of one run. -/
def tornSteps : List (Nat × Op) := (demoOps run3).map (fun o => (0, o))

def tornDisks (k : Nat) : Disk := ((diskAt demoStart tornSteps k).toOption).getD demoStart

/-- A file is looked for before the run begins if it is its first blob, and else when the run has ended. -/
def tornLook (q : Posix) : Nat := if q.comps.getLast? = some "0a-1.jsonl.zstd".toList then 0 else 29

/-- **A listing of a folder that takes its time may be of part of a run**: the one run stores its two blobs and its marker
while the folder is walked; the walk has passed the place of the first blob before that is there, and comes to the second
and to the marker when they are.  The reader takes the run to be complete and delivers the records of the second blob
only, although at every moment the records of the day were either none or all three. -/
theorem C98_torn_listing_fails :
    Taken zJob [(mar1, run3)] tornSteps ∧ (∀ k, diskAt demoStart tornSteps k = .ok (tornDisks k)) ∧
    (∀ k rows, Rows zJob [(mar1, run3)] (tornSteps.take k) mar1 rows → rows = [] ∨ rows = [1, 2, 3]) ∧
    ∃ l, Reader.openReader (rangeReader zJob feb28 mar1 ["tests/".toList]) ⟨2024, 5, 5, 0, 0, 0⟩ []
        (tornBlobsAt (tornDisks 29) tornDisks tornLook) = .ok (0, l) ∧
      delivered (fun _ => 0) Mabel.Blobs.demoLib' {} (readAt tornDisks (fun _ => 29)) l = [.row 3] := by
  have htaken : Taken zJob [(mar1, run3)] tornSteps := by
    refine ⟨?_, ?_⟩
    · intro i p hp
      match i, hp with
      | 0, hp =>
        cases hp
        refine ⟨_, demo_ops (by decide +kernel), ?_⟩
        rw [tornSteps, share_map]
        simp
    · intro x hx
      obtain ⟨o, -, rfl⟩ := List.mem_map.1 hx
      simp
  refine ⟨htaken, ?_, ?_, ?_⟩
  · intro k
    obtain ⟨d', d'', h1, -⟩ := as_in_turn (ls := demoFolders) daily (S := fun t => t = mar1) (fun t h => by rw [h]; exact mar1_day)
      [(mar1, run3)] (by
        intro p hp
        rw [List.mem_singleton.1 hp]
        exact ⟨rfl, demo_on _ <| demo_run_ok run3 (by simp)⟩) (by simp) demoStart
      (fun t h => by rw [h]; exact demo_day_fresh (by simp)) (tornSteps.take k) (htaken.take k)
    unfold tornDisks diskAt
    rw [h1]
    rfl
  · intro k rows h
    rcases h with ⟨i, r, hi, -, rfl, -⟩ | ⟨-, rfl⟩
    · have := List.mem_of_getElem? hi
      simp only [List.mem_cons, List.not_mem_nil, or_false, Prod.mk.injEq, true_and] at this
      subst this
      exact Or.inr (by decide)
    · exact Or.inl rfl
  · have key : ((Reader.openReader (rangeReader zJob feb28 mar1 ["tests/".toList]) ⟨2024, 5, 5, 0, 0, 0⟩ []
        (tornBlobsAt (tornDisks 29) tornDisks tornLook)).toOption.map (fun kl =>
          (kl.1, delivered (fun _ => 0) Mabel.Blobs.demoLib' {} (readAt tornDisks (fun _ => 29)) kl.2)))
        = some (0, [.row 3]) := by decide +kernel
    cases hl : Reader.openReader (rangeReader zJob feb28 mar1 ["tests/".toList]) ⟨2024, 5, 5, 0, 0, 0⟩ []
        (tornBlobsAt (tornDisks 29) tornDisks tornLook) with
    | error e => rw [hl] at key; cases key
    | ok kl =>
      rw [hl] at key
      simp only [Except.toOption, Option.map_some, Option.some.injEq, Prod.mk.injEq] at key
      obtain ⟨k, l⟩ := kl
      obtain ⟨rfl, key⟩ := key
      exact ⟨l, rfl, key⟩

end Mabel.Overlap
